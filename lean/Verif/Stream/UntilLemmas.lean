import Verif.Stream.ExactLemmas
namespace Verif.Stream
variable {α : Type}

/-- `b` occurs in `s` at index `i`. -/
def Occ (b s : List α) (i : Nat) : Prop := b <+: s.drop i

/-- `i` is the first index at which `b` occurs in `s`. -/
def First (b s : List α) (i : Nat) : Prop := Occ b s i ∧ ∀ j < i, ¬ Occ b s j

theorem Occ.bound {b s : List α} {i : Nat} (h : Occ b s i) (hb : b ≠ []) : i + b.length ≤ s.length := by
  have := h.length_le
  simp at this
  have : 0 < b.length := List.length_pos_iff.mpr hb
  omega

theorem occ_append_right {b x y : List α} {i : Nat} : Occ b (x ++ y) (x.length + i) ↔ Occ b y i := by
  unfold Occ
  rw [List.drop_append, List.drop_of_length_le (by omega : x.length ≤ x.length + i)]
  simp

theorem occ_append_left {b x : List α} {i : Nat} (y : List α) (h : Occ b x i) : Occ b (x ++ y) i := by
  unfold Occ at *
  rw [List.drop_append]
  exact List.prefix_append_of_prefix h

theorem occ_append_left_iff {b x y : List α} {i : Nat} (h : i + b.length ≤ x.length) :
    Occ b (x ++ y) i ↔ Occ b x i := by
  refine ⟨fun ho => ?_, occ_append_left y⟩
  unfold Occ at *
  rw [List.drop_append_of_le_length (by omega)] at ho
  refine List.prefix_of_prefix_length_le ho (List.prefix_append _ _) ?_
  simp; omega

theorem first_append {b x y : List α} {i : Nat} (h : First b (x ++ y) i) (hi : x.length ≤ i) :
    First b y (i - x.length) := by
  obtain ⟨k, rfl⟩ := Nat.exists_eq_add_of_le hi
  refine ⟨by simpa using occ_append_right.mp h.1, fun j hj => ?_⟩
  intro ho
  exact h.2 (x.length + j) (by omega) (occ_append_right.mpr ho)

theorem first_iff {b s pre post : List α} : FirstOccurrence b s pre post ↔
    First b s pre.length ∧ pre = s.take pre.length ∧ post = s.drop (pre.length + b.length) := by
  constructor
  · rintro ⟨h1, h2⟩
    subst h1
    refine ⟨⟨?_, ?_⟩, by simp, ?_⟩
    · unfold Occ; simp
    · intro j hj ho
      obtain ⟨t, ht⟩ := ho
      have := h2 ((pre ++ b ++ post).take j) t (by
        rw [List.append_assoc _ b t, ht, List.take_append_drop])
      simp at this
      omega
    · rw [← List.length_append, List.append_assoc, ← List.append_assoc]; simp
  · rintro ⟨⟨ho, hmin⟩, hpre, hpost⟩
    obtain ⟨t, ht⟩ := ho
    constructor
    · have e : t = post := by
        rw [hpost, ← List.drop_drop, ← ht]; simp
      have : s = s.take pre.length ++ s.drop pre.length := (List.take_append_drop _ _).symm
      rw [← hpre, ← ht, e] at this
      rw [List.append_assoc]; exact this
    · intro pre' post' he
      by_cases hlt : pre'.length < pre.length
      · exfalso
        apply hmin _ hlt
        rw [he]
        unfold Occ; simp
      · omega

variable [DecidableEq α]

theorem findFrom_some {b c : List α} {o i : Nat} (h : findFrom b o c = some i) :
    o ≤ i ∧ Occ b c i ∧ ∀ j, o ≤ j → j < i → ¬ Occ b c j := by
  unfold findFrom at h
  rw [List.find?_eq_some_iff_append] at h
  obtain ⟨hp, as, bs, he, hn⟩ := h
  have hp : Occ b c i := List.isPrefixOf_iff_prefix.mp hp
  have hlen : as.length < c.length + 1 - o := by
    have := congrArg List.length he
    simp at this; omega
  have hget : i = o + as.length := by
    have h1 : (List.range' o (c.length + 1 - o))[as.length]? = some i := by rw [he]; simp
    rw [List.getElem?_range' hlen] at h1
    simpa using h1.symm
  refine ⟨by omega, hp, fun j hj1 hj2 ho => ?_⟩
  have hmem : j ∈ as := by
    have h1 : (List.range' o (c.length + 1 - o))[j - o]? = some j := by
      rw [List.getElem?_range' (by omega)]; simp; omega
    rw [he, List.getElem?_append_left (by omega)] at h1
    exact List.mem_of_getElem? h1
  have := hn j hmem
  rw [Bool.not_eq_true'] at this
  have h2 : b.isPrefixOf (c.drop j) = true := List.isPrefixOf_iff_prefix.mpr ho
  rw [h2] at this; contradiction

theorem findFrom_none {b c : List α} {o : Nat} (hb : b ≠ []) (h : findFrom b o c = none) :
    ∀ j, o ≤ j → ¬ Occ b c j := by
  intro j hj ho
  unfold findFrom at h
  rw [List.find?_eq_none] at h
  have hbd := ho.bound hb
  have := h j (by simp; omega)
  exact this (List.isPrefixOf_iff_prefix.mpr ho)

/-- Sizes of the non-empty proper prefixes of `b` with which `h` ends. -/
def IsBorder (b h : List α) (k : Nat) : Prop :=
  0 < k ∧ k < b.length ∧ k ≤ h.length ∧ h.drop (h.length - k) <+: b

theorem endSizes_mem {b c : List α} {o : Nat} (k : Nat) :
    k ∈ endSizes c o b ↔ IsBorder b c k ∧ k + o ≤ c.length := by
  unfold endSizes IsBorder
  simp only [List.mem_map, List.mem_filter, List.mem_range'_1, List.isPrefixOf_iff_prefix]
  constructor
  · rintro ⟨i, ⟨hi, hp⟩, rfl⟩
    have hl := hp.length_le
    simp only [List.length_drop] at hl
    have : c.length - (c.length - i) = i := by split at hi <;> omega
    rw [this]
    refine ⟨⟨?_, ?_, by omega, hp⟩, ?_⟩
    · split at hi <;> omega
    · split at hi
      · omega
      · split at hi <;> omega
    · split at hi
      · omega
      · split at hi <;> omega
  · rintro ⟨⟨h1, h2, h3, h4⟩, h5⟩
    refine ⟨c.length - k, ⟨?_, h4⟩, by omega⟩
    split
    · omega
    · split <;> omega

theorem endSizes_sorted {b c : List α} {o : Nat} : (endSizes c o b).Pairwise (· > ·) := by
  unfold endSizes
  rw [List.pairwise_map]
  refine List.Pairwise.imp_of_mem ?_ ((List.pairwise_lt_range' ).filter _)
  intro a d ha hd hlt
  simp only [List.mem_filter, List.mem_range'_1] at ha hd
  split at ha <;> split at hd <;> omega

omit [DecidableEq α] in
theorem border_straddle {b h y : List α} {i : Nat} (ho : Occ b (h ++ y) i) (hi : i < h.length)
    (hl : h.length < i + b.length) : IsBorder b h (h.length - i) := by
  refine ⟨by omega, by omega, by omega, ?_⟩
  have e : h.length - (h.length - i) = i := by omega
  rw [e]
  unfold Occ at ho
  rw [List.drop_append_of_le_length (by omega)] at ho
  refine List.prefix_of_prefix_length_le (List.prefix_append _ y) ho ?_
  simp; omega

omit [DecidableEq α] in
theorem occ_of_border {b h c y : List α} {k : Nat} (hk : IsBorder b h k) (hc : b.length - k ≤ c.length) :
    Occ b (h ++ (c ++ y)) (h.length - k) ↔ c.take (b.length - k) = b.drop k := by
  obtain ⟨h1, h2, h3, h4⟩ := hk
  unfold Occ
  rw [List.drop_append_of_le_length (by omega)]
  obtain ⟨t, ht⟩ := h4
  have hlen : (h.drop (h.length - k)).length = k := by simp; omega
  generalize h.drop (h.length - k) = z at *
  have hd : b.drop k = t := by rw [← ht, ← hlen]; simp
  have htl : t.length = b.length - k := by rw [← hd]; simp
  have e : c.take (b.length - k) = (c ++ y).take t.length := by
    rw [htl, List.take_append_of_le_length hc]
  rw [hd, e]
  conv => lhs; rw [← ht]
  rw [List.prefix_append_right_inj, List.prefix_iff_eq_take]
  exact eq_comm

/-- What `readUntilLoop` must achieve on the byte sequence `s`. -/
def Achieves (b s : List α) (atEof : Bool) (r : RRes α) : Prop :=
  (∀ i, First b s i → ∃ out s', r = .ok out s' ∧ out.flatten = s.take i ∧ unread s' = s.drop (i + b.length) ∧ WF s'
    ∧ s'.atEof = atEof) ∧
  ((∀ i, ¬ Occ b s i) → ∃ out s', r = .eof out s')

omit [DecidableEq α] in
theorem Achieves.yield {b x y : List α} {atEof : Bool} {r : RRes α} {pre : List (List α)}
    (hpre : pre.flatten = x) (h : Achieves b y atEof r) (hno : ∀ i < x.length, ¬ Occ b (x ++ y) i) :
    Achieves b (x ++ y) atEof (r.yield pre) := by
  constructor
  · intro i hi
    have hle : x.length ≤ i := by
      by_cases hlt : i < x.length
      · exact absurd hi.1 (hno i hlt)
      · omega
    obtain ⟨out, s', e1, e2, e3, e4, e5⟩ := h.1 _ (first_append hi hle)
    refine ⟨pre ++ out, s', by rw [e1]; rfl, ?_, ?_, e4, e5⟩
    · rw [List.flatten_append, hpre, e2, List.take_append, List.take_of_length_le hle]
    · have hz : x.drop (i + b.length) = [] := List.drop_of_length_le (by omega)
      rw [e3, List.drop_append, hz, List.nil_append]
      congr 1; omega
  · intro hn
    obtain ⟨out, s', e⟩ := h.2 (fun i ho => hn (x.length + i) (occ_append_right.mpr ho))
    exact ⟨pre ++ out, s', by rw [e]; rfl⟩

/-- Lines 1021-1054 as a separate function, with the continuation of the loop abstracted. -/
def searchPhase (atEof : Bool) (b c : List α) (cs : List (List α)) (held : List (List α)) (offset : Nat) : RRes α :=
  match findFrom b offset c with
  | some index =>
    let off := index + b.length
    let out := if offset ≠ index then [(c.take index).drop offset] else []
    if off = c.length then .ok out ⟨cs, 0, atEof⟩ else .ok out ⟨c :: cs, off, atEof⟩
  | none =>
    let c' := if offset ≠ 0 then c.drop offset else c
    match endSizes c' offset b with
    | [] => (readUntilLoop atEof b cs 0 [] held).yield [c']
    | size :: sizes' =>
      let off := c'.length - size
      (readUntilLoop atEof b cs 0 (size :: sizes') [c'.drop off]).yield
        (if off = 0 then [] else [c'.take off])

theorem readUntilLoop_cons (atEof : Bool) (b c : List α) (cs : List (List α)) (offset : Nat) (sizes : List Nat)
    (held : List (List α)) :
    readUntilLoop atEof b (c :: cs) offset sizes held =
      if sizes = [] then searchPhase atEof b c cs held offset
      else
        match finishSizes c b sizes with
        | (some off, _) =>
          let off' := if off = c.length then 0 else off
          let chunks' := if off = c.length then cs else c :: cs
          .ok (releaseHeld held ((b.length : Int) - off')).1 ⟨chunks', off', atEof⟩
        | (none, []) => (searchPhase atEof b c cs held 0).yield held
        | (none, cont) =>
          let sizes' := continueSizes c b cont ++ endSizes c 0 b
          let rel := releaseHeld (held ++ [c]) b.length
          (readUntilLoop atEof b cs 0 sizes' rel.2).yield rel.1 := by
  rw [readUntilLoop]; rfl

/-- The sizes remembered by the loop describe the held back bytes `h`. -/
def Remembers (b : List α) (sizes : List Nat) (h : List α) : Prop :=
  sizes.Pairwise (· > ·) ∧ (∀ k, k ∈ sizes ↔ IsBorder b h k) ∧ sizes.head? = some h.length

theorem search_achieves {b c : List α} {cs : List (List α)} {atEof : Bool} {held : List (List α)} {o : Nat} (hb : b ≠ [])
    (hne : ∀ x ∈ c :: cs, x ≠ [])
    (ho : o < c.length) (ho2 : (∃ i, o ≤ i ∧ Occ b c i) ∨
      ∀ i < o, i + o < c.length → c.length < i + o + b.length → ¬ Occ b (c.drop o ++ cs.flatten) i)
    (ih0 : ∀ held, Achieves b cs.flatten atEof (readUntilLoop atEof b cs 0 [] held))
    (ih1 : ∀ sizes h, Remembers b sizes h →
      Achieves b (h ++ cs.flatten) atEof (readUntilLoop atEof b cs 0 sizes [h])) :
    Achieves b (c.drop o ++ cs.flatten) atEof (searchPhase atEof b c cs held o) := by
  have hbl : 0 < b.length := List.length_pos_iff.mpr hb
  unfold searchPhase
  split
  · rename_i idx hf
    obtain ⟨h1, h2, h3⟩ := findFrom_some hf
    have hbd := h2.bound hb
    have hocc : Occ b (c.drop o ++ cs.flatten) (idx - o) := by
      apply occ_append_left
      unfold Occ; rw [List.drop_drop]
      have : o + (idx - o) = idx := by omega
      rw [this]; exact h2
    constructor
    · intro i hi
      have hii : i = idx - o := by
        rcases Nat.lt_trichotomy i (idx - o) with hlt | heq | hgt
        · exfalso
          have hocc' := hi.1
          rw [occ_append_left_iff (by simp; omega)] at hocc'
          unfold Occ at hocc'; rw [List.drop_drop] at hocc'
          exact h3 (o + i) (by omega) (by omega) hocc'
        · exact heq
        · exact absurd hocc (hi.2 _ hgt)
      have hflat : (if o ≠ idx then [(c.take idx).drop o] else []).flatten = (c.drop o ++ cs.flatten).take i := by
        rw [List.take_append_of_le_length (by simp; omega)]
        split
        · simp [List.drop_take, hii]
        · have : i = 0 := by omega
          simp [this]
      have hdrop : (c.drop o ++ cs.flatten).drop (i + b.length) = c.drop (idx + b.length) ++ cs.flatten := by
        rw [List.drop_append_of_le_length (by simp; omega), List.drop_drop]
        congr 2; omega
      simp only
      split
      · rename_i heq
        refine ⟨_, _, rfl, hflat, ?_, WF_tail hne _, rfl⟩
        rw [hdrop, heq]; simp [unread]
      · rename_i hneq
        refine ⟨_, _, rfl, hflat, ?_, ⟨hne, ?_⟩, rfl⟩
        · rw [hdrop]; simp only [unread, List.flatten_cons]
          rw [List.drop_append_of_le_length (by omega)]
        · show idx + b.length < c.length; omega
    · intro hn; exact absurd hocc (hn _)
  · rename_i hf
    have hno := findFrom_none hb hf
    have hc' : (if o ≠ 0 then c.drop o else c) = c.drop o := by
      split
      · rfl
      · rename_i h; simp at h; simp [h]
    simp only [hc']
    have hcond : ∀ i < o, i + o < c.length → c.length < i + o + b.length → ¬ Occ b (c.drop o ++ cs.flatten) i := by
      rcases ho2 with ⟨i, hi, hocc⟩ | h
      · exact absurd hocc (hno i hi)
      · exact h
    have hmem := endSizes_mem (b := b) (c := c.drop o) (o := o)
    have hsorted := endSizes_sorted (b := b) (c := c.drop o) (o := o)
    have hno' : ∀ i, ¬ Occ b (c.drop o) i := by
      intro i hocc
      unfold Occ at hocc; rw [List.drop_drop] at hocc
      exact hno (o + i) (by omega) hocc
    have hbord : ∀ i < (c.drop o).length, Occ b (c.drop o ++ cs.flatten) i →
        (c.drop o).length - i ∈ endSizes (c.drop o) o b := by
      intro i hi hocc
      have hstr : (c.drop o).length < i + b.length := by
        by_cases hle : i + b.length ≤ (c.drop o).length
        · exact absurd ((occ_append_left_iff hle).mp hocc) (hno' i)
        · omega
      rw [hmem]
      refine ⟨border_straddle hocc hi hstr, ?_⟩
      by_cases hio : i < o
      · simp only [List.length_drop] at hi hstr
        exact absurd hocc (hcond i hio (by omega) (by omega))
      · omega
    clear hcond
    generalize hc2 : c.drop o = d at *
    split
    · rename_i hnil
      refine Achieves.yield (by simp) (ih0 held) ?_
      intro i hi hocc
      have := hbord i hi hocc
      rw [hnil] at this; simp at this
    · rename_i size sizes' hcons
      have hsz : IsBorder b d size := ((hmem size).mp (by rw [hcons]; simp)).1
      have hsz2 := ((hmem size).mp (by rw [hcons]; simp)).2
      rw [hcons] at hsorted hmem hbord
      have hmax : ∀ k ∈ size :: sizes', k ≤ size := by
        intro k hk
        rcases List.mem_cons.mp hk with h | h
        · omega
        · have := List.rel_of_pairwise_cons hsorted h; omega
      have hszl := hsz.2.2.1
      have hrem : Remembers b (size :: sizes') (d.drop (d.length - size)) := by
        refine ⟨hsorted, ?_, by simp; omega⟩
        intro k
        have hl : (d.drop (d.length - size)).length = size := by simp; omega
        constructor
        · intro hk
          have h1 := ((hmem k).mp hk).1
          have h2 := hmax k hk
          refine ⟨h1.1, h1.2.1, by omega, ?_⟩
          rw [hl, List.drop_drop]
          have : d.length - size + (size - k) = d.length - k := by omega
          rw [this]; exact h1.2.2.2
        · intro hk
          rw [hmem]
          refine ⟨⟨hk.1, hk.2.1, by have := hk.2.2.1; omega, ?_⟩, by have := hk.2.2.1; omega⟩
          have h3 := hk.2.2.2
          have h4 := hk.2.2.1
          rw [hl] at h4
          rw [hl, List.drop_drop] at h3
          have : d.length - size + (size - k) = d.length - k := by omega
          rw [this] at h3; exact h3
      have hsplit : d ++ cs.flatten = d.take (d.length - size) ++ (d.drop (d.length - size) ++ cs.flatten) := by
        rw [← List.append_assoc, List.take_append_drop]
      rw [hsplit]
      refine Achieves.yield ?_ (ih1 _ _ hrem) ?_
      · split
        · rename_i h0; simp [h0]
        · simp
      · intro i hi hocc
        rw [← hsplit] at hocc
        simp at hi
        have := hmax _ (hbord i (by omega) hocc)
        omega

theorem finishSizes_spec {b h c y : List α} (hc : ∀ k, 0 < k → k < b.length → b.length - k ≤ c.length) :
    ∀ sizes : List Nat, (∀ k ∈ sizes, IsBorder b h k) →
      (∃ k pre suf, sizes = pre ++ k :: suf ∧ finishSizes c b sizes = (some (b.length - k), []) ∧
        Occ b (h ++ (c ++ y)) (h.length - k) ∧ ∀ j ∈ pre, ¬ Occ b (h ++ (c ++ y)) (h.length - j)) ∨
      (finishSizes c b sizes = (none, []) ∧ ∀ j ∈ sizes, ¬ Occ b (h ++ (c ++ y)) (h.length - j)) := by
  intro sizes
  induction sizes with
  | nil => intro _; right; exact ⟨rfl, by simp⟩
  | cons size sizes ih =>
    intro hall
    have hb1 := hall size (by simp)
    have hlt : ¬ c.length < b.length - size := by have := hc size hb1.1 hb1.2.1; omega
    unfold finishSizes
    simp only [hlt, if_false]
    split
    · rename_i he
      left
      exact ⟨size, [], sizes, rfl, rfl, (occ_of_border hb1 (by omega)).mpr he, by simp⟩
    · rename_i he
      have hn : ¬ Occ b (h ++ (c ++ y)) (h.length - size) := fun ho => he ((occ_of_border hb1 (by omega)).mp ho)
      rcases ih (fun k hk => hall k (List.mem_cons_of_mem _ hk)) with ⟨k, pre, suf, h1, h2, h3, h4⟩ | ⟨h1, h2⟩
      · left
        refine ⟨k, size :: pre, suf, by rw [h1]; rfl, h2, h3, ?_⟩
        intro j hj
        rcases List.mem_cons.mp hj with rfl | hj
        · exact hn
        · exact h4 j hj
      · right
        refine ⟨h1, ?_⟩
        intro j hj
        rcases List.mem_cons.mp hj with rfl | hj
        · exact hn
        · exact h2 j hj

omit [DecidableEq α] in
theorem releaseHeld_single (h : List α) (k : Nat) (hk : 0 < k) (hk2 : k ≤ h.length) :
    (releaseHeld [h] (k : Int)).1.flatten = h.take (h.length - k) := by
  unfold releaseHeld
  rw [if_neg (by omega)]
  simp only [List.map_cons, List.map_nil, List.sum_cons, List.sum_nil]
  split
  · have : h.length - k = 0 := by omega
    simp [this]
  · have e : ((h.length + 0 : Nat) : Int) - (k : Int) = ((h.length - k : Nat) : Int) := by omega
    rw [e]
    simp only [Int.toNat_natCast, releaseLoop]
    rw [if_neg (by omega)]
    split
    · simp
    · omega

/-- Chunks on which the partial match bookkeeping of the code is right. -/
def Roomy (b c : List α) : Prop := c ≠ [] ∧ (b.length ≤ c.length ∨ b.length ≤ 2)

theorem loop_achieves {b : List α} {atEof : Bool} (hb : b ≠ []) : ∀ cs : List (List α), (∀ c ∈ cs, Roomy b c) →
    (∀ held, Achieves b cs.flatten atEof (readUntilLoop atEof b cs 0 [] held)) ∧
    (∀ sizes h, Remembers b sizes h → Achieves b (h ++ cs.flatten) atEof (readUntilLoop atEof b cs 0 sizes [h])) := by
  have hbl : 0 < b.length := List.length_pos_iff.mpr hb
  intro cs
  induction cs with
  | nil =>
    intro _
    refine ⟨fun held => ⟨?_, ?_⟩, fun sizes h hr => ⟨?_, ?_⟩⟩
    · intro i hi; have := hi.1.bound hb; simp only [List.flatten_nil, List.length_nil] at this; omega
    · intro _; exact ⟨_, _, by rw [readUntilLoop]⟩
    · intro i hi
      have hbd := hi.1.bound hb
      simp at hbd
      have : IsBorder b h h.length := (hr.2.1 _).mp (List.mem_of_head? hr.2.2)
      have := this.2.1
      omega
    · intro _; exact ⟨_, _, by rw [readUntilLoop]⟩
  | cons c cs ih =>
    intro hroom
    have hcs := ih (fun x hx => hroom x (List.mem_cons_of_mem _ hx))
    have hne : ∀ x ∈ c :: cs, x ≠ [] := fun x hx => (hroom x hx).1
    have hcl : 0 < c.length := List.length_pos_iff.mpr (hne c (by simp))
    have hsearch := fun held => search_achieves (held := held) hb hne hcl (.inr (by omega)) hcs.1 hcs.2
    refine ⟨fun held => ?_, fun sizes h hr => ?_⟩
    · rw [readUntilLoop_cons, if_pos rfl]
      simpa using hsearch held
    · have hcons : sizes ≠ [] := by
        intro hnil; rw [hnil] at hr; simpa using hr.2.2
      rw [readUntilLoop_cons, if_neg hcons]
      have hroomc := (hroom c (by simp)).2
      rcases finishSizes_spec (h := h) (c := c) (y := cs.flatten) (b := b)
          (fun k h1 h2 => by rcases hroomc with h | h <;> omega) sizes (fun k hk => (hr.2.1 k).mp hk) with
        ⟨k, pre, suf, h1, h2, h3, h4⟩ | ⟨h1, h2⟩
      · rw [h2]
        simp only [List.flatten_cons]
        have hk : IsBorder b h k := (hr.2.1 k).mp (by rw [h1]; simp)
        have hfirst : ∀ i, First b (h ++ (c ++ cs.flatten)) i → i = h.length - k := by
          intro i hi
          rcases Nat.lt_trichotomy i (h.length - k) with hlt | heq | hgt
          · exfalso
            have hbord : IsBorder b h (h.length - i) := by
              apply border_straddle hi.1 (by omega)
              have : IsBorder b h h.length := (hr.2.1 _).mp (List.mem_of_head? hr.2.2)
              have := this.2.1
              omega
            have hm := (hr.2.1 _).mpr hbord
            have hs := hr.1
            rw [h1] at hm hs
            rcases List.mem_append.mp hm with hm | hm
            · have := h4 _ hm
              have e : h.length - (h.length - i) = i := by omega
              rw [e] at this; exact this hi.1
            · rw [List.pairwise_append] at hs
              rcases List.mem_cons.mp hm with hm | hm
              · omega
              · have := List.rel_of_pairwise_cons hs.2.1 hm
                omega
          · exact heq
          · exact absurd h3 (hi.2 _ hgt)
        constructor
        · intro i hi
          have hie := hfirst i hi
          have hk3 := hk.2.2.1
          have hk2 := hk.2.1
          have hk1 := hk.1
          have htake : (h ++ (c ++ cs.flatten)).take i = h.take (h.length - k) := by
            rw [List.take_append_of_le_length (by omega), hie]
          have hlek : b.length - k ≤ c.length := by rcases hroomc with h | h <;> omega
          have hdrop : (h ++ (c ++ cs.flatten)).drop (i + b.length) = c.drop (b.length - k) ++ cs.flatten := by
            rw [List.drop_append, List.drop_of_length_le (by omega), List.nil_append]
            have : i + b.length - h.length = b.length - k := by omega
            rw [this, List.drop_append_of_le_length hlek]
          rw [htake, hdrop]
          by_cases hfull : b.length - k = c.length
          · simp only [hfull, if_true]
            refine ⟨_, _, rfl, ?_, by simp [unread], WF_tail hne _, rfl⟩
            have hb2 : b.length ≤ 2 := by rcases hroomc with h | h <;> omega
            have hh : IsBorder b h h.length := (hr.2.1 _).mp (List.mem_of_head? hr.2.2)
            have := hh.2.1
            have e : h.length = 1 := by omega
            have e2 : h.length - k = 0 := by omega
            rw [e2]
            have hneg : ¬ ((b.length : Int) - ((0 : Nat) : Int) ≤ 0) := by omega
            unfold releaseHeld
            rw [if_neg hneg]
            simp only [List.map_cons, List.map_nil, List.sum_cons, List.sum_nil]
            rw [if_pos (by omega)]
            simp
          · simp only [hfull, if_false]
            refine ⟨_, _, rfl, ?_, ?_, ⟨hne, ?_⟩, rfl⟩
            · have e : (b.length : Int) - ((b.length - k : Nat) : Int) = (k : Int) := by omega
              rw [e]
              exact releaseHeld_single h k hk1 hk3
            · simp only [unread, List.flatten_cons]
              rw [List.drop_append_of_le_length hlek]
            · show b.length - k < c.length; omega
        · intro hn; exact absurd h3 (hn _)
      · rw [h1]
        simp only [List.flatten_cons]
        have hs : Achieves b (c ++ cs.flatten) atEof (searchPhase atEof b c cs [h] 0) := by
          simpa using hsearch [h]
        refine Achieves.yield (by simp) hs ?_
        intro i hi hocc
        have hbord : IsBorder b h (h.length - i) := by
          apply border_straddle hocc hi
          have : IsBorder b h h.length := (hr.2.1 _).mp (List.mem_of_head? hr.2.2)
          have := this.2.1
          omega
        have := h2 _ ((hr.2.1 _).mpr hbord)
        have e : h.length - (h.length - i) = i := by omega
        rw [e] at this
        exact this hocc

theorem readUntil_achieves {b : List α} (hb : b ≠ []) (s : RState α) (hs : WF s) (hg : GoodSegments b s) :
    Achieves b (unread s) s.atEof (readUntil b s) := by
  obtain ⟨chunks, offset, atEof⟩ := s
  cases chunks with
  | nil =>
    have : offset = 0 := hs.2
    subst this
    have := (loop_achieves (atEof := atEof) hb [] (by simp)).1 []
    simpa [unread, readUntil] using this
  | cons c cs =>
    have hoff : offset < c.length := hs.2
    obtain ⟨hg1, hg2⟩ := hg
    have hroom : ∀ x ∈ cs, Roomy b x := fun x hx => ⟨hs.1 x (List.mem_cons_of_mem _ hx), hg1 x hx⟩
    have ih := loop_achieves (atEof := atEof) hb cs hroom
    have := search_achieves (held := []) (o := offset) hb hs.1 hoff (by
      rcases hg2 with ⟨p, q, h⟩ | h
      · refine .inl ⟨offset + p.length, by omega, ?_⟩
        unfold Occ
        rw [← List.drop_drop, ← h]
        simp
      · refine .inr (fun i hi h1 h2 hocc => ?_)
        dsimp only at h
        obtain ⟨t, ht⟩ := hocc
        have hu : unread ⟨c :: cs, offset, atEof⟩ = c.drop offset ++ cs.flatten := by
          simp [unread, List.drop_append_of_le_length (Nat.le_of_lt hoff)]
        have hil : i ≤ (c.drop offset ++ cs.flatten).length := by simp; omega
        have hlen : ((c.drop offset ++ cs.flatten).take i).length = i := by rw [List.length_take]; omega
        have := h ((c.drop offset ++ cs.flatten).take i) t (by
          rw [hu, List.append_assoc, ht, List.take_append_drop]) (by rw [hlen]; exact hi)
          (by rw [hlen, List.length_drop]; omega)
        rw [hlen, List.length_drop] at this
        omega) ih.1 ih.2
    unfold readUntil
    rw [readUntilLoop_cons, if_pos rfl]
    simpa [unread, List.drop_append_of_le_length (Nat.le_of_lt hoff)] using this

omit [DecidableEq α] in
theorem yield_eq_ok {r : RRes α} {pre out : List (List α)} {s' : RState α} (h : r.yield pre = .ok out s') :
    ∃ out', r = .ok out' s' := by
  cases r with
  | ok o st => simp only [RRes.yield, RRes.ok.injEq] at h; exact ⟨o, by rw [h.2]⟩
  | eof o st => simp [RRes.yield] at h

omit [DecidableEq α] in
theorem readExactlyLoop_suffix {atEof : Bool} {stale : Nat} : ∀ (chunks : List (List α)) (n : Nat) out s',
    readExactlyLoop atEof stale n chunks = .ok out s' → s'.chunks <:+ chunks := by
  intro chunks
  induction chunks with
  | nil => intro n out s' h; simp [readExactlyLoop] at h
  | cons c cs ih =>
    intro n out s' h
    unfold readExactlyLoop at h
    split at h
    · obtain ⟨o, h⟩ := yield_eq_ok h
      exact (ih _ _ _ h).trans (List.suffix_cons ..)
    · split at h
      · simp only [RRes.ok.injEq] at h; rw [← h.2]; exact List.suffix_cons ..
      · simp only [RRes.ok.injEq] at h; rw [← h.2]; exact List.suffix_refl _

omit [DecidableEq α] in
theorem readExactly_suffix {n : Nat} {s s' : RState α} {out} (h : readExactly n s = .ok out s') : s'.chunks <:+ s.chunks := by
  unfold readExactly at h
  split at h
  · simp at h
  · rename_i c cs hc
    rw [hc]
    simp only at h
    repeat' split at h
    all_goals first
      | (simp only [RRes.ok.injEq] at h; rw [← h.2]; first | exact List.suffix_refl _ | exact List.suffix_cons ..)
      | (obtain ⟨o, h⟩ := yield_eq_ok h; exact (readExactlyLoop_suffix _ _ _ _ h).trans (List.suffix_cons ..))

theorem readUntilLoop_suffix {atEof : Bool} {b : List α} : ∀ (chunks : List (List α)) offset sizes held out s',
    readUntilLoop atEof b chunks offset sizes held = .ok out s' → s'.chunks <:+ chunks := by
  intro chunks
  induction chunks with
  | nil => intro offset sizes held out s' h; simp [readUntilLoop] at h
  | cons c cs ih =>
    have hsearch : ∀ held o out s', searchPhase atEof b c cs held o = .ok out s' → s'.chunks <:+ c :: cs := by
      intro held o out s' h
      unfold searchPhase at h
      split at h
      · simp only at h
        split at h
        all_goals simp only [RRes.ok.injEq] at h; rw [← h.2]; first | exact List.suffix_refl _ | exact List.suffix_cons ..
      · simp only at h
        split at h
        all_goals obtain ⟨o, h⟩ := yield_eq_ok h; exact (ih _ _ _ _ _ h).trans (List.suffix_cons ..)
    intro offset sizes held out s' h
    rw [readUntilLoop_cons] at h
    split at h
    · exact hsearch _ _ _ _ h
    · split at h
      · simp only [RRes.ok.injEq] at h
        rw [← h.2]
        simp only
        split
        · exact List.suffix_cons ..
        · exact List.suffix_refl _
      · obtain ⟨o, h⟩ := yield_eq_ok h
        exact hsearch _ _ _ _ h
      · obtain ⟨o, h⟩ := yield_eq_ok h
        exact (ih _ _ _ _ _ h).trans (List.suffix_cons ..)

theorem readUntil_suffix {b : List α} {s s' : RState α} {out} (h : readUntil b s = .ok out s') : s'.chunks <:+ s.chunks :=
  readUntilLoop_suffix _ _ _ _ _ _ h

omit [DecidableEq α] in
theorem Uncut.suffix {x y : α} {l l' : List (List α)} (h : Uncut x y l) (hs : l' <:+ l) : Uncut x y l' := by
  obtain ⟨t, rfl⟩ := hs
  intro before c d after he
  exact h (t ++ before) c d after (by rw [he]; simp)

omit [DecidableEq α] in
theorem uncut_good {x y : α} {s : RState α} (hs : WF s) (hu : Uncut x y s.chunks) : GoodSegments [x, y] s := by
  unfold GoodSegments
  split
  · trivial
  · rename_i c cs hc
    refine ⟨fun _ _ => .inr (by simp), .inr ?_⟩
    intro pre post h h1 h2
    by_cases hle : pre.length + [x, y].length ≤ (c.drop s.offset).length
    · exact hle
    · exfalso
      have hoff : s.offset < c.length := by have := hs.2; rw [hc] at this; exact this
      have hun : unread s = c.drop s.offset ++ cs.flatten := by
        simp [unread, hc, List.drop_append_of_le_length (Nat.le_of_lt hoff)]
      have hl : pre.length + 1 = (c.drop s.offset).length := by simp at hle h2 ⊢; omega
      have h3 : (pre ++ [x]) ++ (y :: post) = c.drop s.offset ++ cs.flatten := by rw [← hun, h]; simp
      obtain ⟨e1, e2⟩ := List.append_inj h3 (by simpa using hl)
      cases cs with
      | nil => simp at e2
      | cons d ds =>
        have hd : d ≠ [] := hs.1 d (by rw [hc]; simp)
        rw [hc] at hu
        have := hu [] c d ds rfl
        apply this
        constructor
        · have : c = c.take s.offset ++ (pre ++ [x]) := by rw [e1, List.take_append_drop]
          rw [this, ← List.append_assoc]; simp
        · cases d with
          | nil => exact absurd rfl hd
          | cons z d => simp at e2; simp [e2.1]

end Verif.Stream
