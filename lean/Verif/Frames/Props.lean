import Verif.Frames.Props162
/-! Properties C161, C163 and C164 of the grouping of frames. -/
namespace Verif.Frames
open Spec (Repeats Worth NoRepeat Shows Valid Apart)

/-! ## Frames with company -/

/-- In every repeat worth to be shown there is a frame which is alone. -/
def Clean (hot : Frame → Prop) (l : List Frame) : Prop :=
  ∀ s c t, Worth (l.map Frame.key) s c t → ∃ i f, s ≤ i ∧ i < s + c * t ∧ l[i]? = some f ∧ ¬ hot f

theorem Worth.of_append_left {a b : List Frame} {s c t : Nat} (h : Worth ((a ++ b).map Frame.key) s c t) (hf : s + c * t ≤ a.length) : Worth (a.map Frame.key) s c t := by
  refine ⟨⟨h.1.pos, by rw [List.length_map]; exact hf, ?_⟩, h.2⟩
  intro q hq i hi
  have hx : c * q + c ≤ c * t := by rw [← Nat.mul_succ]; exact Nat.mul_le_mul_left c hq
  have := h.1.same q hq i hi
  rw [List.map_append, List.getElem?_append_left (by rw [List.length_map]; omega), List.getElem?_append_left (by rw [List.length_map]; omega)] at this
  exact this

theorem Worth.of_append_right {a b : List Frame} {s c t : Nat} (h : Worth ((a ++ b).map Frame.key) s c t) (hf : a.length ≤ s) : Worth (b.map Frame.key) (s - a.length) c t := by
  have hl := h.1.fits
  rw [List.length_map, List.length_append] at hl
  refine ⟨⟨h.1.pos, by rw [List.length_map]; omega, ?_⟩, h.2⟩
  intro q hq i hi
  have := h.1.same q hq i hi
  rw [List.map_append, List.getElem?_append_right (by rw [List.length_map]; omega), List.getElem?_append_right (by rw [List.length_map]; omega), List.length_map] at this
  rw [show s - a.length + c * q + i = s + c * q + i - a.length by omega, show s - a.length + i = s + i - a.length by omega]
  exact this

/-- Where two lists meet, one of the frames is alone. -/
def Border (hot : Frame → Prop) (a b : List Frame) : Prop :=
  (∃ f, a[a.length - 1]? = some f ∧ ¬ hot f) ∨ (∃ f, b[0]? = some f ∧ ¬ hot f)

theorem Clean.append {hot : Frame → Prop} {a b : List Frame} (ha : Clean hot a) (hb : Clean hot b) (hab : Border hot a b) (hne : a ≠ []) : Clean hot (a ++ b) := by
  intro s c t hw
  by_cases h1 : s + c * t ≤ a.length
  · obtain ⟨i, f, g1, g2, g3, g4⟩ := ha s c t (Worth.of_append_left hw h1)
    exact ⟨i, f, g1, g2, by rw [List.getElem?_append_left (by omega)]; exact g3, g4⟩
  · by_cases h2 : a.length ≤ s
    · obtain ⟨i, f, g1, g2, g3, g4⟩ := hb _ c t (Worth.of_append_right hw h2)
      exact ⟨i + a.length, f, by omega, by omega, by rw [List.getElem?_append_right (by omega), Nat.add_sub_cancel]; exact g3, g4⟩
    · have hl : 0 < a.length := List.length_pos_iff.2 hne
      rcases hab with ⟨f, g1, g2⟩ | ⟨f, g1, g2⟩
      · exact ⟨a.length - 1, f, by omega, by omega, by rw [List.getElem?_append_left (by omega)]; exact g1, g2⟩
      · exact ⟨a.length, f, by omega, by omega, by rw [List.getElem?_append_right (by omega), Nat.sub_self]; exact g1, g2⟩

theorem Clean.of_noRepeat {hot : Frame → Prop} {l : List Frame} (h : NoRepeat (l.map Frame.key)) : Clean hot l := fun s c t hw => absurd hw (h s c t)

theorem worth_three {keys : List Nat} {s c t : Nat} (h : Worth keys s c t) : 3 ≤ keys.length := by
  obtain ⟨m, rfl, h1, h2, h3⟩ := Worth.two h
  rw [Nat.mul_comm] at h2
  have := h.1.pos
  omega

theorem noRepeat_short {l : List Frame} (h : l.length ≤ 2) : NoRepeat (l.map Frame.key) := by
  intro s c t hw
  have := worth_three hw
  rw [List.length_map] at this
  omega

theorem Clean.of_cold {hot : Frame → Prop} {l : List Frame} (h : ∀ f ∈ l, ¬ hot f) : Clean hot l := by
  intro s c t hw
  obtain ⟨m, rfl, h1, h2, h3⟩ := Worth.two hw
  rw [List.length_map] at h3
  have hp := hw.1.pos
  refine ⟨s, l[s]'(by omega), by omega, by rw [Nat.mul_succ]; omega, List.getElem?_eq_getElem _, h _ (List.getElem_mem _)⟩

/-- Two frames of the same key at different places. -/
theorem alike_two {l : List Frame} {i j : Nat} {f g : Frame} (hij : i < j) (hi : l[i]? = some f) (hj : l[j]? = some g) (hk : f.key = g.key) : 1 < alikeCount l f ∧ 1 < alikeCount l g := by
  have hsplit : l = l.take j ++ l.drop j := (List.take_append_drop j l).symm
  have mi : f ∈ l.take j := by
    have : (l.take j)[i]? = some f := by rw [List.getElem?_take_of_lt hij]; exact hi
    exact List.mem_of_getElem? this
  have mj : g ∈ l.drop j := by
    have : (l.drop j)[0]? = some g := by rw [List.getElem?_drop]; exact hj
    exact List.mem_of_getElem? this
  have key : ∀ k, f.key = k → g.key = k → 1 < (l.filter fun x => x.key = k).length := by
    intro k hf hg
    rw [hsplit, List.filter_append, List.length_append]
    have a : 0 < ((l.take j).filter fun x => x.key = k).length := List.length_pos_of_mem (List.mem_filter.2 ⟨mi, by simp [hf]⟩)
    have b : 0 < ((l.drop j).filter fun x => x.key = k).length := List.length_pos_of_mem (List.mem_filter.2 ⟨mj, by simp [hg]⟩)
    omega
  exact ⟨key _ rfl hk.symm, key _ hk rfl⟩

theorem alike_mono {l m : List Frame} (h : l.Sublist m) (f : Frame) : alikeCount l f ≤ alikeCount m f := (h.filter _).length_le

/-- All frames of a repeat have company. -/
theorem worth_hot {l : List Frame} {s c t : Nat} (h : Worth (l.map Frame.key) s c t) {i : Nat} {f : Frame} (h1 : s ≤ i) (h2 : i < s + c * t) (hf : l[i]? = some f) :
    1 < alikeCount l f := by
  obtain ⟨m, rfl, g1, g2, g3⟩ := Worth.two h
  rw [List.length_map] at g3
  have hp := h.1.pos
  have hdm : c * ((i - s) / c) + (i - s) % c = i - s := Nat.div_add_mod _ _
  have hr : (i - s) % c < c := Nat.mod_lt _ hp
  have hq : (i - s) / c < m + 1 := (Nat.div_lt_iff_lt_mul hp).2 (by rw [Nat.mul_comm]; omega)
  generalize (i - s) / c = q at hdm hq
  generalize (i - s) % c = r at hdm hr
  have hcm : c ≤ c * m := Nat.le_mul_of_pos_right c g1
  have a := h.1.same q hq r hr
  rw [show s + c * q + r = i by omega] at a
  rw [List.getElem?_map, hf] at a
  by_cases hq0 : q = 0
  · subst hq0
    have b := h.1.same 1 (by omega) r hr
    rw [Nat.mul_one] at b
    rw [← b, List.getElem?_map] at a
    cases hg : l[s + c + r]? with
    | none => rw [hg] at a; cases a
    | some g =>
      rw [hg] at a
      exact (alike_two (j := s + c + r) (by omega) hf hg (Option.some.inj a)).1
  · have : c ≤ c * q := Nat.le_mul_of_pos_right c (by omega)
    rw [List.getElem?_map] at a
    cases hg : l[s + r]? with
    | none => rw [hg] at a; cases a
    | some g =>
      rw [hg] at a
      exact (alike_two (i := s + r) (by omega) hg hf (Option.some.inj a).symm).2

/-- In a clean list whose frames with company are those of a larger list nothing repeats. -/
theorem Clean.noRepeat {frames l : List Frame} (h : Clean (fun f => 1 < alikeCount frames f) l) (hs : l.Sublist frames) : NoRepeat (l.map Frame.key) := by
  intro s c t hw
  obtain ⟨i, f, h1, h2, h3, h4⟩ := h s c t hw
  exact h4 (Nat.lt_of_lt_of_le (worth_hot hw h1 h2 h3) (alike_mono hs f))

/-! ## The invariant -/

/-- What holds for a group at every time. -/
structure Good (hot : Frame → Prop) (g : Group) : Prop where
  nonempty : g.frames ≠ []
  some : g.kind ≠ .none
  one : g.count = 1 → (g.kind = .singles → Clean hot g.frames)
  many : g.count ≠ 1 → g.kind = .repeated ∧ 2 ≤ g.count ∧ 2 ≤ (g.count - 1) * g.frames.length ∧ NoRepeat (g.frames.map Frame.key)

/-- What holds for neighbours. -/
def Next (hot : Frame → Prop) (g h : Group) : Prop := g.count = 1 → h.count = 1 → Border hot g.frames h.frames

def Chain (hot : Frame → Prop) : Group → List Group → Prop
  | _, [] => True
  | g, h :: hs => Next hot g h ∧ Chain hot h hs

theorem Border.congr_left {hot : Frame → Prop} {a a' b : List Frame} (h : Border hot a b) (he : a'[a'.length - 1]? = a[a.length - 1]?) : Border hot a' b := by
  unfold Border at h ⊢; rw [he]; exact h

theorem Border.congr_right {hot : Frame → Prop} {a b b' : List Frame} (h : Border hot a b) (he : b'[0]? = b[0]?) : Border hot a b' := by
  unfold Border at h ⊢; rw [he]; exact h

theorem last_append {a b : List Frame} (h : b ≠ []) : (a ++ b)[(a ++ b).length - 1]? = b[b.length - 1]? := by
  have := List.length_pos_iff.2 h
  rw [List.length_append, List.getElem?_append_right (by omega)]
  congr 1
  omega

theorem head_append {a b : List Frame} (h : a ≠ []) : (a ++ b)[0]? = a[0]? := by
  rw [List.getElem?_append_left (List.length_pos_iff.2 h)]

theorem expand_one {g : Group} (h : g.count = 1) : g.expand = g.frames := by
  unfold Group.expand; rw [h]; simp

/-! ## Merging -/

theorem tryMerge_some {g h k : Group} (hm : g.tryMerge h = some k) :
    g.count = 1 ∧ h.count = 1 ∧ k = ⟨g.frames ++ h.frames, 1, .singles⟩ ∧ (g.kind = .singles ∨ g.frames.length ≤ 2) ∧ (h.kind = .singles ∨ h.frames.length ≤ 2) := by
  obtain ⟨gf, gc, gk⟩ := g
  obtain ⟨hf, hc, hk⟩ := h
  unfold Group.tryMerge at hm
  split at hm
  · cases hm
  · rename_i hcount
    have hcount' : gc = 1 ∧ hc = 1 := by
      simp only [not_or, Decidable.not_not] at hcount
      exact hcount
    obtain ⟨rfl, rfl⟩ := hcount'
    cases gk <;> cases hk <;> simp [expand_one] at hm ⊢
    · exact hm.symm
    · exact ⟨hm.2.symm, hm.1⟩
    · exact ⟨hm.2.symm, hm.1⟩

theorem tryMerge_none {g h : Group} (hm : g.tryMerge h = none) (hg : g.count = 1 → g.kind = .singles) (hh : h.count = 1 → h.kind = .singles) : ¬ (g.count = 1 ∧ h.count = 1) := by
  rintro ⟨h1, h2⟩
  unfold Group.tryMerge at hm
  rw [if_neg (by simp [h1, h2]), hg h1, hh h2] at hm
  cases hm

theorem Good.clean {hot : Frame → Prop} {g : Group} (h : Good hot g) (hc : g.count = 1) (hk : g.kind = .singles ∨ g.frames.length ≤ 2) : Clean hot g.frames := by
  rcases hk with hk | hk
  · exact h.one hc hk
  · exact Clean.of_noRepeat (noRepeat_short hk)

theorem mergeLoop_good {hot : Frame → Prop} {hs : List Group} {g : Group} (hg : Good hot g) (hh : ∀ h ∈ hs, Good hot h) (hc : Chain hot g hs) :
    (∀ k ∈ mergeLoop g hs, Good hot k) ∧ ∀ x, Next hot x g → Chain hot x (mergeLoop g hs) := by
  induction hs generalizing g with
  | nil =>
    refine ⟨fun k hk => ?_, fun x hx => ⟨hx, trivial⟩⟩
    rw [mergeLoop, List.mem_singleton] at hk
    rw [hk]; exact hg
  | cons h hs ih =>
    have h0 := hh h (by simp)
    simp only [mergeLoop]
    cases hm : g.tryMerge h with
    | none =>
      obtain ⟨i1, i2⟩ := ih h0 (fun k hk => hh k (by simp [hk])) hc.2
      simp only
      refine ⟨fun k hk => ?_, fun x hx => ⟨hx, i2 g hc.1⟩⟩
      rcases List.mem_cons.1 hk with hk | hk
      · rw [hk]; exact hg
      · exact i1 k hk
    | some k =>
      obtain ⟨m1, m2, rfl, m4, m5⟩ := tryMerge_some hm
      have good : Good hot ⟨g.frames ++ h.frames, 1, .singles⟩ := by
        refine ⟨by simp [hg.nonempty], nofun, fun _ _ => ?_, fun hn => absurd rfl hn⟩
        exact Clean.append (hg.clean m1 m4) (h0.clean m2 m5) (hc.1 m1 m2) hg.nonempty
      have chain : Chain hot ⟨g.frames ++ h.frames, 1, .singles⟩ hs := by
        cases hs with
        | nil => trivial
        | cons k ks => exact ⟨fun _ a2 => Border.congr_left (hc.2.1 m2 a2) (last_append h0.nonempty), hc.2.2⟩
      obtain ⟨i1, i2⟩ := ih good (fun k hk => hh k (by simp [hk])) chain
      exact ⟨i1, fun x hx => i2 x fun a1 _ => Border.congr_right (hx a1 m1) (head_append hg.nonempty)⟩

theorem mergeLoop_shows {hs : List Group} {g : Group} {fs : List Frame} (h : Shows (g :: hs) fs) : Shows (mergeLoop g hs) fs := by
  induction hs generalizing g fs with
  | nil => exact h
  | cons k hs ih =>
    simp only [mergeLoop]
    cases hm : g.tryMerge k with
    | none =>
      simp only
      cases h with
      | single h => exact .single (ih h)
      | many h hc hk hf => exact .many (ih h) hc hk hf
    | some k' =>
      obtain ⟨m1, m2, rfl, _, _⟩ := tryMerge_some hm
      simp only
      apply ih
      cases h with
      | many h hc hk hf => simp only at m1; omega
      | single h =>
        cases h with
        | many h hc hk hf => simp only at m2; omega
        | single h =>
          simp only
          rw [← List.append_assoc]
          exact .single h

theorem mergeLoop_apart {hs : List Group} {g : Group} (hg : g.count = 1 → g.kind = .singles) (hh : ∀ h ∈ hs, h.count = 1 → h.kind = .singles) :
    Apart (mergeLoop g hs) ∧ (∀ k ∈ mergeLoop g hs, k.count = 1 → k.kind = .singles) ∧ ∀ k, (mergeLoop g hs).head? = some k → k.count = g.count := by
  induction hs generalizing g with
  | nil =>
    refine ⟨trivial, fun k hk => ?_, fun k hk => ?_⟩
    · rw [mergeLoop, List.mem_singleton] at hk
      rw [hk]; exact hg
    · cases hk; rfl
  | cons h hs ih =>
    simp only [mergeLoop]
    cases hm : g.tryMerge h with
    | none =>
      obtain ⟨i1, i2, i3⟩ := ih (hh h (by simp)) (fun k hk => hh k (by simp [hk]))
      simp only
      refine ⟨?_, fun k hk => ?_, fun k hk => ?_⟩
      · cases hml : mergeLoop h hs with
        | nil => trivial
        | cons k ks =>
          rw [hml] at i1
          refine ⟨?_, i1⟩
          rw [i3 k (by rw [hml]; rfl)]
          exact tryMerge_none hm hg (hh h (by simp))
      · rcases List.mem_cons.1 hk with hk | hk
        · rw [hk]; exact hg
        · exact i2 k hk
      · cases hk; rfl
    | some k =>
      obtain ⟨m1, m2, rfl, _, _⟩ := tryMerge_some hm
      obtain ⟨i1, i2, i3⟩ := ih (g := ⟨g.frames ++ h.frames, 1, .singles⟩) (fun _ => rfl) (fun k hk => hh k (by simp [hk]))
      exact ⟨i1, i2, fun k hk => by rw [i3 k hk, m1]⟩

/-! ## Grouping -/

theorem groupLoop_spec (alike : Frame → Nat) (fs : List Frame) (g : Group) (hn : g.frames ≠ []) (hc : g.count = 1)
    (hk : g.kind = .singles ∧ (∀ f ∈ g.frames, ¬ 1 < alike f) ∨ g.kind = .repeated ∧ ∀ f ∈ g.frames, 1 < alike f) :
    Shows (groupLoop alike g fs) (g.frames ++ fs) ∧ (∀ k ∈ groupLoop alike g fs, Good (fun f => 1 < alike f) k ∧ k.count = 1) ∧
    (groupLoop alike g fs).length ≤ fs.length + 1 ∧
    ∀ x, Next (fun f => 1 < alike f) x g → Chain (fun f => 1 < alike f) x (groupLoop alike g fs) := by
  have good : ∀ g : Group, g.frames ≠ [] → g.count = 1 → (g.kind = .singles ∧ (∀ f ∈ g.frames, ¬ 1 < alike f) ∨ g.kind = .repeated ∧ ∀ f ∈ g.frames, 1 < alike f) → Good (fun f => 1 < alike f) g := by
    intro g hn hc hk
    refine ⟨hn, ?_, fun _ hs => ?_, fun h => absurd hc h⟩
    · rcases hk with ⟨h, _⟩ | ⟨h, _⟩ <;> rw [h] <;> nofun
    · rcases hk with ⟨_, h⟩ | ⟨h, _⟩
      · exact Clean.of_cold h
      · rw [h] at hs; cases hs
  induction fs generalizing g with
  | nil =>
    have hkn : g.kind ≠ .none := (good g hn hc hk).some
    simp only [groupLoop, if_pos hkn]
    refine ⟨?_, fun k hm => ?_, by simp, fun x hx => ⟨hx, trivial⟩⟩
    · obtain ⟨frames, count, kind⟩ := g
      simp only at hc
      subst hc
      exact .single .nil
    · rw [List.mem_singleton] at hm
      rw [hm]; exact ⟨good g hn hc hk, hc⟩
  | cons f fs ih =>
    have addCase (he : g.tryAdd alike f = some { g with frames := g.frames ++ [f] })
        (hk' : g.kind = .singles ∧ (∀ x ∈ g.frames ++ [f], ¬ 1 < alike x) ∨ g.kind = .repeated ∧ ∀ x ∈ g.frames ++ [f], 1 < alike x) :
        Shows (groupLoop alike g (f :: fs)) (g.frames ++ f :: fs) ∧ (∀ k ∈ groupLoop alike g (f :: fs), Good (fun f => 1 < alike f) k ∧ k.count = 1) ∧
        (groupLoop alike g (f :: fs)).length ≤ (f :: fs).length + 1 ∧
        ∀ x, Next (fun f => 1 < alike f) x g → Chain (fun f => 1 < alike f) x (groupLoop alike g (f :: fs)) := by
      obtain ⟨i1, i2, i3, i4⟩ := ih { g with frames := g.frames ++ [f] } (by simp) hc hk'
      simp only [groupLoop, he]
      refine ⟨?_, i2, by simp only [List.length_cons]; omega, fun x hx => i4 x fun a1 a2 => Border.congr_right (hx a1 a2) (head_append hn)⟩
      simpa using i1
    have newCase (kind : Kind) (he : g.tryAdd alike f = none) (hf : Group.new.tryAdd alike f = some ⟨[f], 1, kind⟩)
        (hk' : kind = .singles ∧ (∀ x ∈ [f], ¬ 1 < alike x) ∨ kind = .repeated ∧ ∀ x ∈ [f], 1 < alike x) (hb : Border (fun f => 1 < alike f) g.frames [f]) :
        Shows (groupLoop alike g (f :: fs)) (g.frames ++ f :: fs) ∧ (∀ k ∈ groupLoop alike g (f :: fs), Good (fun f => 1 < alike f) k ∧ k.count = 1) ∧
        (groupLoop alike g (f :: fs)).length ≤ (f :: fs).length + 1 ∧
        ∀ x, Next (fun f => 1 < alike f) x g → Chain (fun f => 1 < alike f) x (groupLoop alike g (f :: fs)) := by
      obtain ⟨i1, i2, i3, i4⟩ := ih ⟨[f], 1, kind⟩ (by simp) rfl hk'
      simp only [groupLoop, he, hf, Option.getD_some]
      refine ⟨?_, fun k hm => ?_, by simp only [List.length_cons]; omega, fun x hx => ⟨hx, i4 g fun _ _ => hb⟩⟩
      · obtain ⟨frames, count, gk⟩ := g
        simp only at hc
        subst hc
        exact .single i1
      · rcases List.mem_cons.1 hm with hm | hm
        · rw [hm]; exact ⟨good g hn hc hk, hc⟩
        · exact i2 k hm
    have single : ∀ (p : Frame → Prop), p f → ∀ x ∈ [f], p x := fun p hp x hx => by rw [List.mem_singleton.1 hx]; exact hp
    have grown : ∀ (p : Frame → Prop), p f → (∀ x ∈ g.frames, p x) → ∀ x ∈ g.frames ++ [f], p x := fun p hp hg x hx => by
      rcases List.mem_append.1 hx with hx | hx
      · exact hg x hx
      · exact single p hp x hx
    have hl : 0 < g.frames.length := List.length_pos_iff.2 hn
    by_cases ha : 1 < alike f
    · rcases hk with ⟨k1, k2⟩ | ⟨k1, k2⟩
      · refine newCase .repeated (by simp only [Group.tryAdd, k1]; rw [if_pos ha]) (by simp only [Group.tryAdd, Group.new]; rw [if_pos ha]) (Or.inr ⟨rfl, single _ ha⟩) (Or.inl ?_)
        exact ⟨g.frames[g.frames.length - 1]'(by omega), List.getElem?_eq_getElem _, k2 _ (List.getElem_mem _)⟩
      · exact addCase (by simp only [Group.tryAdd, k1]; rw [if_neg (by omega)]) (Or.inr ⟨k1, grown _ ha k2⟩)
    · rcases hk with ⟨k1, k2⟩ | ⟨k1, k2⟩
      · exact addCase (by simp only [Group.tryAdd, k1]; rw [if_neg ha]) (Or.inl ⟨k1, grown (fun x => ¬ 1 < alike x) ha k2⟩)
      · refine newCase .singles (by simp only [Group.tryAdd, k1]; rw [if_pos (by omega)]) (by simp only [Group.tryAdd, Group.new]; rw [if_neg ha]) (Or.inl ⟨rfl, single (fun x => ¬ 1 < alike x) ha⟩) (Or.inr ?_)
        exact ⟨f, rfl, ha⟩

/-- The groups before the first merge. -/
theorem groupLoop_new (alike : Frame → Nat) (f : Frame) (fs : List Frame) :
    ∃ g gs, groupLoop alike Group.new (f :: fs) = g :: gs ∧ Shows (g :: gs) (f :: fs) ∧ (∀ k ∈ g :: gs, Good (fun f => 1 < alike f) k ∧ k.count = 1) ∧ (g :: gs).length ≤ fs.length + 1 ∧
      Chain (fun f => 1 < alike f) g gs := by
  have hs : Group.new.tryAdd alike f = some ⟨[f], 1, if alike f > 1 then .repeated else .singles⟩ := rfl
  have := groupLoop_spec alike fs ⟨[f], 1, if alike f > 1 then .repeated else .singles⟩ (by simp) rfl (by
    by_cases ha : 1 < alike f
    · right; rw [if_pos ha]; exact ⟨rfl, fun x hx => by rw [List.mem_singleton.1 hx]; exact ha⟩
    · left; rw [if_neg ha]; exact ⟨rfl, fun x hx => by rw [List.mem_singleton.1 hx]; exact ha⟩)
  obtain ⟨h1, h2, h3, h4⟩ := this
  simp only [groupLoop, hs]
  have hc := h4 ⟨[], 0, .none⟩ nofun
  cases hg : groupLoop alike ⟨[f], 1, if alike f > 1 then .repeated else .singles⟩ fs with
  | nil => rw [hg] at h1; generalize hx : [f] ++ fs = z at h1; cases h1; cases hx
  | cons g gs =>
    rw [hg] at h1 h2 h3 hc
    exact ⟨g, gs, rfl, h1, h2, h3, hc.2⟩

/-! ## Separating -/

theorem take_take_drop (l : List Frame) (a b : Nat) : l.take a ++ ((l.drop a).take b ++ l.drop (a + b)) = l := by
  rw [← List.drop_drop, List.take_append_drop, List.take_append_drop]

/-- The keys of a repeat. -/
theorem repeats_keys {keys : List Nat} {s c t : Nat} (h : Repeats keys s c t) : (keys.drop s).take (c * t) = (List.replicate t ((keys.drop s).take c)).flatten := by
  obtain ⟨hp, hf, hs⟩ := h
  induction t with
  | zero => simp
  | succ t ih =>
    rw [Nat.mul_succ] at hf
    have i := ih (by omega) (fun q hq => hs q (by omega))
    rw [Nat.mul_succ, List.take_add, i, List.replicate_succ', List.flatten_append, List.flatten_singleton]
    congr 1
    apply List.ext_getElem?
    intro n
    by_cases hn : n < c
    · rw [List.getElem?_take_of_lt hn, List.getElem?_take_of_lt hn, List.drop_drop, List.getElem?_drop, List.getElem?_drop]
      exact hs t (by omega) n hn
    · rw [List.getElem?_eq_none (by rw [List.length_take]; omega), List.getElem?_eq_none (by rw [List.length_take]; omega)]

/-- How often the loop has to run for a group. -/
def cost : Bool × Group → Nat
  | (true, _) => 1
  | (false, g) => 2 * g.frames.length + 2

/-- What a group is replaced by. -/
theorem separate_spec {hot : Frame → Prop} {g : Group} (hg : Good hot g) :
    (∀ b k, (b, k) ∈ g.separate → Good hot k ∧ (b = true → k.count = 1 → k.kind = .singles)) ∧
    (∀ rest fs, Shows (g :: rest) fs → Shows (g.separate.map Prod.snd ++ rest) fs) ∧
    (∀ x rest, Chain hot x (g :: rest) → Chain hot x (g.separate.map Prod.snd ++ rest)) ∧
    (g.separate.map cost).sum ≤ 2 * g.frames.length + 1 := by
  have hl : 0 < g.frames.length := List.length_pos_iff.2 hg.nonempty
  unfold Group.separate
  split
  · rename_i h
    refine ⟨fun b k hm => ?_, fun rest fs hs => hs, fun x rest hx => hx, by simp [cost]⟩
    rw [List.mem_singleton, Prod.mk.injEq] at hm
    obtain ⟨rfl, hm⟩ := hm
    rw [hm]
    refine ⟨hg, fun _ hc => ?_⟩
    rcases h with h | h
    · cases hk : g.kind with
      | none => exact absurd hk hg.some
      | singles => rfl
      | repeated => exact absurd hk h
    · omega
  · rename_i h
    have hk : g.kind = .repeated ∧ g.count ≤ 1 := by
      simp only [not_or, Decidable.not_not, Nat.not_lt, gt_iff_lt] at h
      exact h
    have hc : g.count = 1 := by
      by_cases hc : g.count = 1
      · exact hc
      · have := (hg.many hc).2.1; omega
    obtain ⟨b1, b2⟩ := C162_bottom g.frames
    cases hr : repeatBot g.frames with
    | none =>
      simp only
      have good : Good hot { g with kind := .singles } := ⟨hg.nonempty, nofun, fun _ _ => Clean.of_noRepeat (b1.1 hr), fun hn => absurd hc hn⟩
      refine ⟨fun b k hm => ?_, fun rest fs hs => ?_, fun x rest hx => ?_, by simp [cost]⟩
      · rw [List.mem_singleton, Prod.mk.injEq] at hm
        obtain ⟨rfl, rfl⟩ := hm
        exact ⟨good, fun _ _ => rfl⟩
      · obtain ⟨frames, count, kind⟩ := g
        simp only at hc
        subst hc
        cases hs with
        | many _ hc => omega
        | single hs => exact .single hs
      · cases rest with
        | nil => exact ⟨hx.1, trivial⟩
        | cons k rest => exact ⟨hx.1, hx.2.1, hx.2.2⟩
    | some q =>
      obtain ⟨s, c, t⟩ := q
      obtain ⟨hw, hmin⟩ := b2 s c t hr
      simp only
      have hfit := hw.1.fits
      rw [List.length_map] at hfit
      have hpos := hw.1.pos
      obtain ⟨m, rfl, w1, w2, w3⟩ := Worth.two hw
      have hcm : c ≤ c * m := Nat.le_mul_of_pos_right c w1
      rw [Nat.mul_succ] at hfit ⊢
      have hlen : ((g.frames.drop s).take c).length = c := by rw [List.length_take, List.length_drop]; omega
      have goodMid : Good hot ⟨(g.frames.drop s).take c, m + 1, .repeated⟩ := by
        refine ⟨fun he => ?_, nofun, fun h => ?_, fun _ => ⟨rfl, by simp only; omega, ?_, ?_⟩⟩
        · have he' : (g.frames.drop s).take c = [] := he
          rw [he'] at hlen; simp at hlen; omega
        · simp only at h; omega
        · simp only [hlen, Nat.add_sub_cancel]; exact w2
        · intro s' c' t' hw'
          have hf' := hw'.1.fits
          have h3 := hw'.1.pos
          obtain ⟨m', rfl, v1, v2, v3⟩ := Worth.two hw'
          simp only [List.length_map, hlen] at hf' v3
          have hcm' : c' ≤ c' * m' := Nat.le_mul_of_pos_right c' v1
          have big : Worth (g.frames.map Frame.key) (s + s') c' (m' + 1) := by
            refine ⟨⟨h3, by rw [List.length_map]; omega, fun q hq i hi => ?_⟩, hw'.2⟩
            have := hw'.1.same q hq i hi
            have hx : c' * q + c' ≤ c' * (m' + 1) := by rw [← Nat.mul_succ]; exact Nat.mul_le_mul_left c' hq
            simp only [List.map_take, List.map_drop] at this
            rw [List.getElem?_take_of_lt (by omega), List.getElem?_take_of_lt (by omega), List.getElem?_drop, List.getElem?_drop] at this
            rw [show s + s' + c' * q + i = s + (s' + c' * q + i) by omega, show s + s' + i = s + (s' + i) by omega]
            exact this
          have := (hmin _ _ _ big).1
          omega
      have goodPart : ∀ l : List Frame, l ≠ [] → Good hot ⟨l, 1, .repeated⟩ := fun l hl => ⟨hl, nofun, fun _ h => (by cases h), fun h => absurd rfl h⟩
      have hkeys := repeats_keys hw.1
      have hpart : ((g.frames.drop s).take (c * m + c)).map Frame.key = ((List.replicate (m + 1) ((g.frames.drop s).take c)).flatten).map Frame.key := by
        rw [← Nat.mul_succ, List.map_take, List.map_drop, hkeys, List.map_flatten, List.map_replicate, List.map_take, List.map_drop]
      have hpre : (g.frames.drop s).take c <+: (g.frames.drop s).take (c * m + c) := by
        exact ⟨((g.frames.drop s).drop c).take (c * m), by rw [Nat.add_comm (c * m) c, List.take_add]⟩
      refine ⟨fun b k hm => ?_, fun rest fs hs => ?_, fun x rest hx => ?_, ?_⟩
      · simp only [List.mem_append, List.mem_singleton, Prod.mk.injEq] at hm
        rcases hm with (hm | hm) | hm
        · split at hm
          · rw [List.mem_singleton, Prod.mk.injEq] at hm
            obtain ⟨rfl, rfl⟩ := hm
            exact ⟨goodPart _ (by intro he; have := congrArg List.length he; rw [List.length_take, List.length_nil] at this; omega), nofun⟩
          · cases hm
        · obtain ⟨rfl, rfl⟩ := hm
          exact ⟨goodMid, fun _ hc => by simp only at hc; omega⟩
        · split at hm
          · rw [List.mem_singleton, Prod.mk.injEq] at hm
            obtain ⟨rfl, rfl⟩ := hm
            exact ⟨goodPart _ (by intro he; have := congrArg List.length he; rw [List.length_drop, List.length_nil] at this; omega), nofun⟩
          · cases hm
      · obtain ⟨frames, count, kind⟩ := g
        simp only at hc hfit hpart hpre ⊢
        subst hc
        cases hs with
        | many _ hc => omega
        | single hs =>
          rename_i rest'
          have hlast : Shows ((if frames.length > s + (c * m + c) then [(false, (⟨frames.drop (s + (c * m + c)), 1, .repeated⟩ : Group))] else []).map Prod.snd ++ rest) (frames.drop (s + (c * m + c)) ++ rest') := by
            split
            · exact .single hs
            · rw [List.drop_eq_nil_of_le (by omega)]; exact hs
          have hmid := Shows.many (kind := .repeated) hlast (show 2 ≤ m + 1 by omega) hpart hpre
          have hall : frames ++ rest' = frames.take s ++ ((frames.drop s).take (c * m + c) ++ (frames.drop (s + (c * m + c)) ++ rest')) := by
            conv => lhs; rw [← take_take_drop frames s (c * m + c)]
            simp only [List.append_assoc]
          rw [hall]
          simp only [List.map_append, List.append_assoc]
          split
          · exact .single hmid
          · rw [show s = 0 by omega] at hmid ⊢
            exact hmid
      · have hlastChain : ∀ y : Group, y.count ≠ 1 → Chain hot y ((if g.frames.length > s + (c * m + c) then [(false, (⟨g.frames.drop (s + (c * m + c)), 1, .repeated⟩ : Group))] else []).map Prod.snd ++ rest) := by
          intro y hy
          split
          · refine ⟨fun h => absurd h hy, ?_⟩
            cases rest with
            | nil => trivial
            | cons k rest =>
              refine ⟨fun _ a2 => Border.congr_left (hx.2.1 hc a2) ?_, hx.2.2⟩
              simp only [List.length_drop, List.getElem?_drop]
              congr 1
              omega
          · cases rest with
            | nil => trivial
            | cons k rest => exact ⟨fun h => absurd h hy, hx.2.2⟩
        simp only [List.map_append, List.append_assoc]
        split
        · refine ⟨fun a1 a2 => Border.congr_right (hx.1 a1 hc) ?_, fun _ h => ?_, hlastChain _ (by simp only; omega)⟩
          · simp only [List.getElem?_take_of_lt (show 0 < s by assumption)]
          · simp only at h; omega
        · exact ⟨fun _ h => (by simp only at h; omega), hlastChain _ (by simp only; omega)⟩
      · simp only [List.map_append, List.sum_append]
        rw [Nat.mul_comm] at w2
        split <;> split <;> simp [cost] <;> omega

/-! ## The loop -/

def weight (todo : List (Bool × Group)) : Nat := (todo.map cost).sum

theorem separateLoop_spec {hot : Frame → Prop} (fuel : Nat) (todo : List (Bool × Group)) (hw : weight todo ≤ fuel)
    (hg : ∀ b k, (b, k) ∈ todo → Good hot k ∧ (b = true → k.count = 1 → k.kind = .singles)) :
    ∃ gs, separateLoop fuel todo = some gs ∧ (∀ k ∈ gs, Good hot k ∧ (k.count = 1 → k.kind = .singles)) ∧ (∀ fs, Shows (todo.map Prod.snd) fs → Shows gs fs) ∧
      ∀ x, Chain hot x (todo.map Prod.snd) → Chain hot x gs := by
  induction fuel generalizing todo with
  | zero =>
    cases todo with
    | nil => exact ⟨[], rfl, nofun, fun _ h => h, fun _ h => h⟩
    | cons p todo =>
      exfalso
      obtain ⟨b, g⟩ := p
      cases b <;> simp only [weight, List.map_cons, List.sum_cons, cost] at hw <;> omega
  | succ fuel ih =>
    cases todo with
    | nil => exact ⟨[], rfl, nofun, fun _ h => h, fun _ h => h⟩
    | cons p todo =>
      obtain ⟨b, g⟩ := p
      cases b with
      | true =>
        obtain ⟨gs, h1, h2, h3, h4⟩ := ih todo (by simp only [weight, List.map_cons, List.sum_cons, cost] at hw ⊢; omega) (fun b k hm => hg b k (by simp [hm]))
        refine ⟨g :: gs, by simp [separateLoop, h1], fun k hk => ?_, fun fs hs => ?_, fun x hx => ⟨hx.1, h4 g hx.2⟩⟩
        · rcases List.mem_cons.1 hk with hk | hk
          · rw [hk]; exact ⟨(hg true g (by simp)).1, (hg true g (by simp)).2 rfl⟩
          · exact h2 k hk
        · cases hs with
          | single hs => exact .single (h3 _ hs)
          | many hs hc hk hf => exact .many (h3 _ hs) hc hk hf
      | false =>
        obtain ⟨s1, s2, s3, s4⟩ := separate_spec (hg false g (by simp)).1
        obtain ⟨gs, h1, h2, h3, h4⟩ := ih (g.separate ++ todo) (by
          simp only [weight, List.map_cons, List.sum_cons, List.map_append, List.sum_append, cost] at hw ⊢
          omega) (fun b k hm => by
            rcases List.mem_append.1 hm with hm | hm
            · exact s1 b k hm
            · exact hg b k (by simp [hm]))
        refine ⟨gs, h1, h2, fun fs hs => h3 fs ?_, fun x hx => h4 x ?_⟩
        · rw [List.map_append]; exact s2 _ _ hs
        · rw [List.map_append]; exact s3 _ _ hx

theorem shows_length {gs : List Group} {fs : List Frame} (h : Shows gs fs) (hc : ∀ g ∈ gs, g.count = 1) : (gs.map fun g => g.frames.length).sum = fs.length := by
  induction h with
  | nil => rfl
  | single h ih => simp [ih fun g hg => hc g (by simp [hg])]
  | many h h2 _ _ _ => have := hc _ (List.mem_cons_self ..); simp only at this; omega

theorem mergeLoop_sizes (hs : List Group) (g : Group) : (mergeLoop g hs).length ≤ hs.length + 1 ∧
    ((∀ h ∈ g :: hs, h.count = 1) → ∀ h ∈ mergeLoop g hs, h.count = 1) := by
  induction hs generalizing g with
  | nil => exact ⟨Nat.le_refl _, fun h => h⟩
  | cons h hs ih =>
    simp only [mergeLoop]
    cases hm : g.tryMerge h with
    | none =>
      obtain ⟨i1, i2⟩ := ih h
      simp only [List.length_cons]
      refine ⟨by omega, fun hc k hk => ?_⟩
      rcases List.mem_cons.1 hk with hk | hk
      · rw [hk]; exact hc g (by simp)
      · exact i2 (fun x hx => hc x (by simp only [List.mem_cons] at hx ⊢; exact Or.inr hx)) k hk
    | some k =>
      obtain ⟨m1, m2, rfl, _, _⟩ := tryMerge_some hm
      obtain ⟨i1, i2⟩ := ih ⟨g.frames ++ h.frames, 1, .singles⟩
      simp only [List.length_cons]
      refine ⟨by omega, fun hc => i2 fun x hx => ?_⟩
      rcases List.mem_cons.1 hx with hx | hx
      · rw [hx]
      · exact hc x (by simp [hx])

/-- All that is known of the result. -/
theorem groupFrames_spec (frames : List Frame) (fuel : Nat) (hf : 4 * frames.length ≤ fuel) :
    ∃ gs, groupFrames fuel frames = some gs ∧ Shows gs frames ∧ Apart gs ∧
      ∀ k ∈ gs, Good (fun f => 1 < alikeCount frames f) k ∧ (k.count = 1 → k.kind = .singles) := by
  cases frames with
  | nil => exact ⟨[], rfl, .nil, trivial, nofun⟩
  | cons f fs =>
    unfold groupFrames
    rw [if_neg nofun]
    obtain ⟨g, gs, h1, h2, h3, h4, h5⟩ := groupLoop_new (alikeCount (f :: fs)) f fs
    rw [h1]
    have hm : merge (g :: gs) = mergeLoop g gs := rfl
    rw [hm]
    obtain ⟨m1, m2⟩ := mergeLoop_good (h3 g (by simp)).1 (fun h hh => (h3 h (by simp [hh])).1) h5
    have m3 := mergeLoop_shows h2
    obtain ⟨m4, m5⟩ := mergeLoop_sizes gs g
    have m6 := m5 fun h hh => (h3 h hh).2
    have hsum := shows_length m3 m6
    have hweight : weight ((mergeLoop g gs).map fun g => (false, g)) ≤ fuel := by
      have : ∀ l : List Group, weight (l.map fun g => (false, g)) = 2 * (l.map fun g => g.frames.length).sum + 2 * l.length := by
        intro l
        induction l with
        | nil => rfl
        | cons x l ih =>
          simp only [weight, List.map_cons, List.sum_cons, cost, List.length_cons] at ih ⊢
          omega
      rw [this, hsum]
      simp only [List.length_cons] at hf h4 ⊢
      omega
    obtain ⟨ks, s1, s2, s3, s4⟩ := separateLoop_spec (hot := fun x => 1 < alikeCount (f :: fs) x) fuel ((mergeLoop g gs).map fun g => (false, g)) hweight (by
      intro b k hk
      rw [List.mem_map] at hk
      obtain ⟨x, hx, he⟩ := hk
      cases he
      exact ⟨m1 _ hx, nofun⟩)
    rw [s1]
    have hmm : ((mergeLoop g gs).map fun g => (false, g)).map Prod.snd = mergeLoop g gs := by rw [List.map_map]; exact List.map_id _
    have s5 := s3 (f :: fs) (by rw [hmm]; exact m3)
    have s6 := s4 ⟨[], 0, .none⟩ (by rw [hmm]; exact m2 _ nofun)
    cases ks with
    | nil => cases s5
    | cons k ks =>
      refine ⟨mergeLoop k ks, rfl, mergeLoop_shows s5, ?_⟩
      obtain ⟨a1, a2, _⟩ := mergeLoop_apart (s2 k (List.mem_cons_self ..)).2 (fun h hh => (s2 h (List.mem_cons_of_mem _ hh)).2)
      obtain ⟨b1, _⟩ := mergeLoop_good (s2 k (List.mem_cons_self ..)).1 (fun h hh => (s2 h (List.mem_cons_of_mem _ hh)).1) s6.2
      exact ⟨a1, fun x hx => ⟨b1 x hx, a2 x hx⟩⟩

/-! ## C161: no frame is lost -/

/-- Grouping ends, and the groups show exactly the given frames in order. -/
theorem C161_frames_conserved (frames : List Frame) (fuel : Nat) (hf : 4 * frames.length ≤ fuel) : ∃ gs, groupFrames fuel frames = some gs ∧ Shows gs frames := by
  obtain ⟨gs, h1, h2, _⟩ := groupFrames_spec frames fuel hf
  exact ⟨gs, h1, h2⟩

theorem shows_keys {gs : List Group} {fs : List Frame} (h : Shows gs fs) : (gs.map Group.expand).flatten.map Frame.key = fs.map Frame.key := by
  induction h with
  | nil => rfl
  | single h ih => simp only [List.map_cons, List.flatten_cons, List.map_append, ih, expand_one]
  | many h _ hk _ ih =>
    simp only [List.map_cons, List.flatten_cons, List.map_append, ih, hk]
    rfl

/-- Iterating over the groups gives frames alike to the given ones, one by one. -/
theorem C161_iterated (frames : List Frame) (fuel : Nat) (hf : 4 * frames.length ≤ fuel) :
    ∃ gs, groupFrames fuel frames = some gs ∧ (gs.map Group.expand).flatten.map Frame.key = frames.map Frame.key := by
  obtain ⟨gs, h1, h2⟩ := C161_frames_conserved frames fuel hf
  exact ⟨gs, h1, shows_keys h2⟩

example : groupFrames 100 [⟨9, 0⟩, ⟨1, 1⟩, ⟨2, 2⟩, ⟨1, 3⟩, ⟨2, 4⟩, ⟨1, 5⟩, ⟨8, 6⟩, ⟨3, 7⟩, ⟨3, 8⟩, ⟨3, 9⟩] =
    some [⟨[⟨9, 0⟩, ⟨1, 1⟩], 1, .singles⟩, ⟨[⟨2, 2⟩, ⟨1, 3⟩], 2, .repeated⟩, ⟨[⟨8, 6⟩], 1, .singles⟩, ⟨[⟨3, 7⟩], 3, .repeated⟩] := by decide

/-! ## C163: the groups -/

theorem shows_sublist {gs : List Group} {fs : List Frame} (h : Shows gs fs) : ∀ g ∈ gs, g.frames.Sublist fs := by
  induction h with
  | nil => nofun
  | single h ih =>
    intro g hg
    rcases List.mem_cons.1 hg with hg | hg
    · rw [hg]; exact List.sublist_append_left _ _
    · exact (ih g hg).trans (List.sublist_append_right _ _)
  | many h _ _ hf ih =>
    intro g hg
    rcases List.mem_cons.1 hg with hg | hg
    · rw [hg]; exact hf.sublist.trans (List.sublist_append_left _ _)
    · exact (ih g hg).trans (List.sublist_append_right _ _)

/-- Every group is one of singles or a repeat which saves at least two frames, no two groups of singles follow each other, and nothing is repeated within a group. -/
theorem C163_groups (frames : List Frame) (fuel : Nat) (hf : 4 * frames.length ≤ fuel) :
    ∃ gs, groupFrames fuel frames = some gs ∧ (∀ g ∈ gs, Valid g) ∧ Apart gs ∧ ∀ g ∈ gs, NoRepeat (g.frames.map Frame.key) := by
  obtain ⟨gs, h1, h2, h3, h4⟩ := groupFrames_spec frames fuel hf
  refine ⟨gs, h1, fun g hg => ?_, h3, fun g hg => ?_⟩
  · obtain ⟨k1, k2⟩ := h4 g hg
    obtain ⟨l, c, k⟩ := g
    by_cases hc : c = 1
    · subst hc
      rw [show k = .singles from k2 rfl]
      exact .singles l k1.nonempty
    · obtain ⟨m1, m2, m3, _⟩ := k1.many hc
      simp only at m1 m2 m3
      subst m1
      exact .many l c k1.nonempty m2 m3
  · obtain ⟨k1, k2⟩ := h4 g hg
    by_cases hc : g.count = 1
    · exact (k1.one hc (k2 hc)).noRepeat (shows_sublist h2 g hg)
    · exact (k1.many hc).2.2.2

theorem round_key (l : List Frame) (c q i : Nat) (hq : q < c) (hi : i < l.length) : ((List.replicate c l).flatten.map Frame.key)[l.length * q + i]? = (l.map Frame.key)[i]? := by
  induction q generalizing c with
  | zero =>
    cases c with
    | zero => omega
    | succ c => rw [List.replicate_succ, List.flatten_cons, List.map_append, List.getElem?_append_left (by rw [List.length_map]; omega)]; simp
  | succ q ih =>
    cases c with
    | zero => omega
    | succ c =>
      rw [List.replicate_succ, List.flatten_cons, List.map_append, List.getElem?_append_right (by rw [List.length_map, Nat.mul_succ]; omega), List.length_map]
      rw [show l.length * (q + 1) + i - l.length = l.length * q + i by rw [Nat.mul_succ]; omega]
      exact ih c (by omega)

/-- A list of frames in which nothing is repeated is one group. -/
theorem C163_no_repeat (frames : List Frame) (fuel : Nat) (hf : 4 * frames.length ≤ fuel) (hn : NoRepeat (frames.map Frame.key)) (hne : frames ≠ []) :
    groupFrames fuel frames = some [⟨frames, 1, .singles⟩] := by
  obtain ⟨gs, h1, h2, h3, h4⟩ := groupFrames_spec frames fuel hf
  rw [h1]
  have all1 : ∀ gs : List Group, ∀ fs pre : List Frame, Shows gs fs → NoRepeat ((pre ++ fs).map Frame.key) →
      (∀ k ∈ gs, Good (fun f => 1 < alikeCount frames f) k ∧ (k.count = 1 → k.kind = .singles)) → ∀ g ∈ gs, g.count = 1 := by
    intro gs fs pre h hn hg
    induction h generalizing pre with
    | nil => nofun
    | single h ih =>
      intro g hm
      rcases List.mem_cons.1 hm with hm | hm
      · rw [hm]
      · exact ih (pre ++ _) (by rw [List.append_assoc]; exact hn) (fun k hk => hg k (by simp [hk])) g hm
    | @many l c k gs part rest h hc hk hf ih =>
      exfalso
      obtain ⟨m1, m2, m3, m4⟩ := (hg ⟨l, c, k⟩ (by simp)).1.many (by simp only; omega)
      simp only at m2 m3
      have hne := (hg ⟨l, c, k⟩ (by simp)).1.nonempty
      have hl : 0 < l.length := List.length_pos_iff.2 hne
      apply hn pre.length l.length c
      have hlen : part.length = l.length * c := by
        have := congrArg List.length hk
        simp at this
        rw [this, Nat.mul_comm]
      refine ⟨⟨hl, by rw [List.length_map]; simp only [List.length_append]; omega, fun q hq i hi => ?_⟩, m3⟩
      have hx : l.length * q + l.length ≤ l.length * c := by rw [← Nat.mul_succ]; exact Nat.mul_le_mul_left _ hq
      have val : ∀ q, q < c → ((pre ++ (part ++ rest)).map Frame.key)[pre.length + l.length * q + i]? = (l.map Frame.key)[i]? := by
        intro q hq
        have hx : l.length * q + l.length ≤ l.length * c := by rw [← Nat.mul_succ]; exact Nat.mul_le_mul_left _ hq
        rw [List.map_append, List.getElem?_append_right (by rw [List.length_map]; omega), List.length_map, show pre.length + l.length * q + i - pre.length = l.length * q + i by omega,
          List.map_append, List.getElem?_append_left (by rw [List.length_map]; omega), hk]
        exact round_key l c q i hq hi
      have v0 := val 0 (by omega)
      rw [Nat.mul_zero, Nat.add_zero] at v0
      rw [val q hq, v0]
  have hone := all1 gs frames [] h2 hn h4
  congr 1
  cases h2 with
  | nil => exact absurd rfl hne
  | many h hc => have := hone _ (List.mem_cons_self ..); simp only at this; omega
  | @single l k gs rest h =>
    cases gs with
    | cons g gs => exact absurd ⟨rfl, hone g (by simp)⟩ h3.1
    | nil =>
      cases h
      have := (h4 ⟨l, 1, k⟩ (by simp)).2 rfl
      simp only at this
      rw [this, List.append_nil]

example : NoRepeat ([1, 2, 3].map fun k => k) := by
  intro s c t hw
  obtain ⟨m, rfl, h1, h2, h3⟩ := Worth.two hw
  have hp := hw.1.pos
  simp at h3
  have e1 : c = 1 ∧ m = 2 ∧ s = 0 := by
    have : c ≤ c * m := Nat.le_mul_of_pos_right c h1
    have hc : c = 1 := by omega
    subst hc
    omega
  obtain ⟨rfl, rfl, rfl⟩ := e1
  have := hw.1.same 1 (by omega) 0 (by omega)
  simp at this

/-! ## C164: filtering the groups -/

/-- If a filter does not distinguish frames which are alike, filtering the groups is filtering the frames. -/
theorem C164_filter_partial (frames : List Frame) (fuel : Nat) (hf : 4 * frames.length ≤ fuel) (p : Frame → Bool) (hp : ∀ f g : Frame, f.key = g.key → p f = p g) :
    ∃ gs, groupFrames fuel frames = some gs ∧ ((gs.map (Group.filter p)).map Group.expand).flatten.map Frame.key = (frames.filter p).map Frame.key := by
  obtain ⟨gs, h1, h2⟩ := C161_frames_conserved frames fuel hf
  refine ⟨gs, h1, ?_⟩
  have keyFilter : ∀ l m : List Frame, l.map Frame.key = m.map Frame.key → (l.filter p).map Frame.key = (m.filter p).map Frame.key := by
    intro l
    induction l with
    | nil => intro m h; cases m with
      | nil => rfl
      | cons => cases h
    | cons x l ih =>
      intro m h
      cases m with
      | nil => cases h
      | cons y m =>
        simp only [List.map_cons, List.cons.injEq] at h
        rw [List.filter_cons, List.filter_cons, hp x y h.1]
        split
        · rw [List.map_cons, List.map_cons, h.1, ih m h.2]
        · exact ih m h.2
  have expandFilter : ∀ g : Group, (g.filter p).expand = g.expand.filter p := by
    intro g
    unfold Group.filter Group.expand
    rw [List.filter_flatten, List.map_replicate]
    simp only
    split
    · rename_i he
      rw [he]
      simp
    · rfl
  have : ((gs.map (Group.filter p)).map Group.expand).flatten = ((gs.map Group.expand).flatten).filter p := by
    rw [List.filter_flatten, List.map_map, List.map_map]
    congr 1
    apply List.map_congr_left
    intro g _
    exact expandFilter g
  rw [this]
  exact keyFilter _ _ (shows_keys h2)

example : ∀ f g : Frame, f.key = g.key → (decide (f.key ≠ 2)) = decide (g.key ≠ 2) := fun f g h => by rw [h]

/-- Otherwise frames are lost: only the frames of the first round are asked. -/
theorem C164_filter_violated : ∃ (frames : List Frame) (p : Frame → Bool) (gs : List Group), groupFrames (4 * frames.length) frames = some gs ∧
    (gs.map (Group.filter p)).map Group.expand = [[]] ∧ (frames.filter p).length = 4 :=
  ⟨[⟨1, 0⟩, ⟨1, 1⟩, ⟨1, 2⟩, ⟨1, 3⟩, ⟨1, 4⟩], fun f => f.id ≠ 0, [⟨[⟨1, 0⟩], 5, .repeated⟩], by decide, by decide, by decide⟩

end Verif.Frames
