import Verif.Lock.Model
/-! Invariants of the lock. -/
namespace Verif.Lock

def ids (q : List Fut) : List Nat := q.map (·.id)
/-- resumed calls that will return -/
def okReady (s : State) : List Waiter := (s.ready.filter (·.2)).map (·.1)
/-- resumed calls that will raise and remove a future from the queue -/
def doomed (s : State) : List Waiter :=
  ((s.ready.filter (fun p => !p.2)).map (·.1)).filter (fun w => decide (w.awaits ∈ ids s.q))

structure Inv (s : State) : Prop where
  size_pos : 0 < s.size
  qlt : ∀ f ∈ ids s.q, f < s.next
  qnd : (ids s.q).Nodup
  wlt : ∀ w ∈ s.waiting, w.id < s.next
  rlt : ∀ p ∈ s.ready, p.1.id < s.next ∧ p.1.awaits < s.next
  wsort : (s.waiting.map (·.id)).Pairwise (· < ·)
  wsub : (s.waiting.map (·.awaits)).Sublist (ids s.q)
  wpre : ∀ w ∈ s.waiting, w.awaits ∈ (ids s.q).take (s.q.length - s.size)
  wpend : ∀ w ∈ s.waiting, (⟨w.awaits, false⟩ : Fut) ∈ s.q
  dnd : ((doomed s).map (·.awaits)).Nodup
  dpre : ∀ w ∈ doomed s, w.awaits ∈ (ids s.q).take (s.q.length - s.size)
  dcanc : ∀ w ∈ doomed s, (⟨w.awaits, true⟩ : Fut) ∈ s.q
  rok : ∀ p ∈ s.ready, p.2 = true → p.1.awaits ∉ ids s.q
  cnt1 : s.holders.length + (okReady s).length ≤ s.size
  cnt2 : s.holders.length + (okReady s).length + s.waiting.length + (doomed s).length ≤ s.q.length
  oksort : ((okReady s).map (·.id)).Pairwise (· < ·)
  okw : ∀ r ∈ okReady s, ∀ w ∈ s.waiting, r.id < w.id
  srvSort : s.served.Pairwise (· < ·)
  srvOk : ∀ x ∈ s.served, ∀ r ∈ okReady s, x < r.id
  srvW : ∀ x ∈ s.served, ∀ w ∈ s.waiting, x < w.id
  srvN : ∀ x ∈ s.served, x < s.next

/-- Every future in the queue, but for `k` lost ones, stands for a holder, a call that will get the lock, or a call that will
remove one. -/
def Exact (s : State) (k : Nat) : Prop :=
  s.holders.length + (okReady s).length + s.waiting.length + (doomed s).length + k = s.q.length

theorem inv_init (size : Nat) (h : 0 < size) : Inv { size := size } := by
  constructor <;> simp [ids, okReady, doomed, h]

/-! ### list facts -/

theorem split_awaits (l : List Waiter) (h : (l.map (·.awaits)).Nodup) (f : Nat) :
    (l.filter (·.awaits = f) = [] ∧ l.filter (·.awaits ≠ f) = l ∧ ∀ w ∈ l, w.awaits ≠ f) ∨
    ∃ l1 w l2, l = l1 ++ w :: l2 ∧ w.awaits = f ∧ l.filter (·.awaits = f) = [w] ∧ l.filter (·.awaits ≠ f) = l1 ++ l2 := by
  by_cases hm : ∃ w ∈ l, w.awaits = f
  · right
    obtain ⟨w, hw, he⟩ := hm
    obtain ⟨l1, l2, rfl⟩ := List.append_of_mem hw
    simp only [List.map_append, List.map_cons, List.nodup_append, List.nodup_cons] at h
    obtain ⟨h1, ⟨h2, h3⟩, h4⟩ := h
    have a1 : ∀ x ∈ l1, x.awaits ≠ f := fun x hx e =>
      h4 x.awaits (List.mem_map_of_mem hx) w.awaits (by simp) (e.trans he.symm)
    have a2 : ∀ x ∈ l2, x.awaits ≠ f := fun x hx e => h2 (by rw [he, ← e]; exact List.mem_map_of_mem hx)
    refine ⟨l1, w, l2, rfl, he, ?_, ?_⟩
    · rw [List.filter_append, List.filter_cons]
      simp only [he, decide_true, if_true]
      rw [List.filter_eq_nil_iff.mpr (by simpa using a1), List.filter_eq_nil_iff.mpr (by simpa using a2)]
      rfl
    · rw [List.filter_append, List.filter_cons]
      simp only [he, ne_eq, not_true_eq_false, decide_false]
      rw [List.filter_eq_self.mpr (by simpa using a1), List.filter_eq_self.mpr (by simpa using a2)]
      rfl
  · left
    have h' : ∀ w ∈ l, w.awaits ≠ f := fun w hw e => hm ⟨w, hw, e⟩
    refine ⟨List.filter_eq_nil_iff.mpr (by simpa using h'), List.filter_eq_self.mpr (by simpa using h'), h'⟩

theorem removeFut_ids (q : List Fut) (f : Nat) : ids (removeFut q f) = (ids q).erase f := by
  induction q with
  | nil => rfl
  | cons x q ih =>
    unfold removeFut ids at *
    by_cases hx : x.id = f
    · simp [hx]
    · simp [hx]; exact ih

theorem removeFut_notMem (q : List Fut) (f : Nat) (h : f ∉ ids q) : removeFut q f = q := by
  unfold removeFut
  apply List.eraseP_of_forall_not
  intro a ha e
  simp only [decide_eq_true_eq] at e
  exact h (by rw [← e]; exact List.mem_map_of_mem ha)

theorem mem_removeFut (q : List Fut) (f : Nat) (x : Fut) (hx : x ∈ q) (hne : x.id ≠ f) : x ∈ removeFut q f := by
  unfold removeFut
  exact (List.mem_eraseP_of_neg (by simpa using hne)).mpr hx

theorem of_mem_removeFut (q : List Fut) (f : Nat) (x : Fut) (hx : x ∈ removeFut q f) : x ∈ q := List.mem_of_mem_eraseP hx

theorem removeFut_length (q : List Fut) (f : Nat) (h : f ∈ ids q) : (removeFut q f).length = q.length - 1 := by
  have : (ids (removeFut q f)).length = (ids q).length - 1 := by
    rw [removeFut_ids, List.length_erase_of_mem h]
  simpa [ids] using this

theorem take_erase (l : List Nat) (k d : Nat) (hd : d ∈ l.take k) (x : Nat) (hx : x ∈ l.take k)
    (hne : x ≠ d) : x ∈ (l.erase d).take (k - 1) := by
  have hl : l = l.take k ++ l.drop k := (List.take_append_drop k l).symm
  have he : l.erase d = (l.take k).erase d ++ l.drop k := by
    conv => lhs; rw [hl]
    exact List.erase_append_left _ hd
  have hle : ((l.take k).erase d).length = (l.take k).length - 1 := List.length_erase_of_mem hd
  have hlt : (l.take k).length ≤ k := by rw [List.length_take]; omega
  rw [he]
  have : x ∈ (l.take k).erase d := (List.mem_erase_of_ne hne).mpr hx
  by_cases hk : k ≤ l.length
  · have : (l.take k).length = k := by rw [List.length_take]; omega
    rw [List.take_append_of_le_length (by omega), List.take_of_length_le (by omega)]
    assumption
  · have hdr : l.drop k = [] := List.drop_of_length_le (by omega)
    have : (l.take k).length ≤ l.length := by rw [List.length_take]; omega
    rw [hdr, List.append_nil, List.take_of_length_le (by omega)]
    assumption

theorem sublist_head (l q : List Nat) (a : Nat) (hs : l.Sublist (a :: q)) (hnd : (a :: q).Nodup) (ha : a ∈ l) :
    ∃ l', l = a :: l' ∧ l'.Sublist q := by
  cases hs with
  | cons _ h =>
    have := h.subset ha
    exact absurd this (List.nodup_cons.mp hnd).1
  | cons_cons _ h => exact ⟨_, rfl, h⟩

theorem sublist_tail (l q : List Nat) (a : Nat) (hs : l.Sublist (a :: q)) (ha : a ∉ l) : l.Sublist q := by
  cases hs with
  | cons _ h => exact h
  | cons_cons _ h => simp at ha

theorem fut_unique (q : List Fut) (h : (ids q).Nodup) (i : Nat) (h1 : (⟨i, false⟩ : Fut) ∈ q) (h2 : (⟨i, true⟩ : Fut) ∈ q) :
    False := by
  induction q with
  | nil => simp at h1
  | cons x q ih =>
    simp only [ids, List.map_cons, List.nodup_cons] at h
    rcases List.mem_cons.mp h1 with e1 | m1 <;> rcases List.mem_cons.mp h2 with e2 | m2
    · rw [← e1] at e2; simp at e2
    · exact h.1 (by rw [← e1]; exact List.mem_map.mpr ⟨_, m2, rfl⟩)
    · exact h.1 (by rw [← e2]; exact List.mem_map.mpr ⟨_, m1, rfl⟩)
    · exact ih h.2 m1 m2

theorem Inv.anodup {s : State} (h : Inv s) : (s.waiting.map (·.awaits)).Nodup := h.wsub.nodup h.qnd

theorem mem_doomed {s : State} {w : Waiter} : w ∈ doomed s ↔ (w, false) ∈ s.ready ∧ w.awaits ∈ ids s.q := by
  simp [doomed]

theorem mem_okReady {s : State} {w : Waiter} : w ∈ okReady s ↔ (w, true) ∈ s.ready := by
  simp [okReady]

/-! ### acquire -/

theorem acquire_inv (k : Nat) (s : State) (h : Inv s) : Inv s.acquire.1 ∧ (Exact s k → Exact s.acquire.1 k) ∧ s.acquire.2 ≠ .indexError := by
  obtain ⟨sp, qlt, qnd, wlt, rlt, wsort, wsub, wpre, wpend, dnd, dpre, dcanc, rok, cnt1, cnt2, oksort, okw, ss, so, sw, sn⟩ := h
  have hids : ids (s.q ++ [⟨s.next, false⟩]) = ids s.q ++ [s.next] := by simp [ids]
  have hlen : (ids s.q).length = s.q.length := by simp [ids]
  have hnn : s.next ∉ ids s.q := fun hm => Nat.lt_irrefl _ (qlt _ hm)
  -- `doomed` is not changed by the new future
  have hd0 : ∀ s' : State, s'.ready = s.ready → ids s'.q = ids s.q ++ [s.next] → doomed s' = doomed s := by
    intro s' h1 h2
    unfold doomed
    rw [h1, h2]
    apply List.filter_congr
    intro w hw
    simp only [List.mem_map, List.mem_filter] at hw
    obtain ⟨p, ⟨hp, _⟩, rfl⟩ := hw
    have := (rlt p hp).2
    have hne : p.1.awaits ≠ s.next := by omega
    simp [hne]
  unfold State.acquire
  simp only
  split
  · rename_i hgt
    simp only [List.length_append, List.length_cons, List.length_nil] at hgt ⊢
    have hidx : s.q.length + (0 + 1) - 1 - s.size = s.q.length - s.size := by omega
    have hlt : s.q.length - s.size < s.q.length := by omega
    rw [hidx, List.getElem?_append_left hlt, List.getElem?_eq_getElem hlt]
    simp only
    generalize hf : s.q[s.q.length - s.size] = f
    have hfm : f ∈ s.q := by rw [← hf]; exact List.getElem_mem _
    have hfi : (ids s.q)[s.q.length - s.size]'(by rw [hlen]; exact hlt) = f.id := by simp [ids, hf]
    have hfnp : f.id ∉ (ids s.q).take (s.q.length - s.size) := by
      intro hm
      obtain ⟨i, hi, he⟩ := List.mem_iff_getElem.mp hm
      rw [List.length_take] at hi
      rw [List.getElem_take] at he
      have := (List.getElem_inj (h₀ := by omega) (h₁ := by rw [hlen]; exact hlt) qnd).mp (he.trans hfi.symm)
      omega
    have htk : (ids s.q ++ [s.next]).take (s.q.length + 1 - s.size) = (ids s.q).take (s.q.length - s.size) ++ [f.id] := by
      rw [List.take_append_of_le_length (by omega)]
      have : s.q.length + 1 - s.size = (s.q.length - s.size) + 1 := by omega
      rw [this, List.take_succ_eq_append_getElem (by rw [hlen]; exact hlt), hfi]
    split
    · -- the awaited future is cancelled already: raises, removing that future
      rename_i hc
      have hfe : f = ⟨f.id, true⟩ := by cases f; simp_all
      have hwf : ∀ w ∈ s.waiting, w.awaits ≠ f.id := fun w hw e => hfnp (e ▸ wpre w hw)
      have hdf : ∀ w ∈ doomed s, w.awaits ≠ f.id := fun w hw e => hfnp (e ▸ dpre w hw)
      have hfq : f.id ∈ ids s.q := List.mem_map_of_mem hfm
      have hidr : ids (removeFut (s.q ++ [⟨s.next, false⟩]) f.id) = (ids s.q).erase f.id ++ [s.next] := by
        rw [removeFut_ids, hids, List.erase_append_left _ hfq]
      have hlr : (removeFut (s.q ++ [⟨s.next, false⟩]) f.id).length = s.q.length := by
        rw [removeFut_length _ _ (by rw [hids]; simp [hfq])]; simp
      have hpre : ∀ x ∈ (ids s.q).take (s.q.length - s.size), x ∈
          ((ids s.q).erase f.id ++ [s.next]).take (s.q.length - s.size) := by
        intro x hx
        have hx1 : x ∈ (ids s.q).take (s.q.length - s.size + 1) := by
          rw [List.take_succ_eq_append_getElem (by rw [hlen]; exact hlt)]; exact List.mem_append_left _ hx
        have hf1 : f.id ∈ (ids s.q).take (s.q.length - s.size + 1) := by
          rw [List.take_succ_eq_append_getElem (by rw [hlen]; exact hlt), hfi]; simp
        have := take_erase _ _ _ hf1 x hx1 (fun e => hfnp (e ▸ hx))
        simp only [Nat.add_sub_cancel] at this
        rw [List.take_append_of_le_length]
        · exact this
        · rw [List.length_erase_of_mem hfq, hlen]; omega
      have hdm : doomed { s with next := s.next + 1, q := removeFut (s.q ++ [⟨s.next, false⟩]) f.id } = doomed s := by
        unfold doomed
        apply List.filter_congr
        intro w hw
        simp only [List.mem_map, List.mem_filter] at hw
        obtain ⟨p, ⟨hp, hpf⟩, rfl⟩ := hw
        have := (rlt p hp).2
        have hne : p.1.awaits ≠ s.next := by omega
        have hne2 : p.1.awaits ∈ ids s.q → p.1.awaits ≠ f.id := fun hi =>
          hdf p.1 (mem_doomed.mpr ⟨by have : p.2 = false := by simpa using hpf
                                      rw [← this]; exact hp, hi⟩)
        simp only [hidr]
        by_cases hi : p.1.awaits ∈ ids s.q
        · simp [List.mem_erase_of_ne (hne2 hi), hi]
        · have : p.1.awaits ∉ (ids s.q).erase f.id := fun hm => hi (List.mem_of_mem_erase hm)
          simp [hi, hne, this]
      refine ⟨?_, ?_, by simp⟩
      · refine ⟨sp, ?_, ?_, fun w hw => ?_, fun p hp => ?_, wsort, ?_, ?_, ?_, by rw [hdm]; exact dnd, ?_, ?_, ?_, cnt1, ?_,
          oksort, okw, ss, so, sw, fun x hx => ?_⟩
        · intro x hx
          simp only [hidr, List.mem_append, List.mem_singleton] at hx
          rcases hx with hx | hx
          · exact Nat.lt_succ_of_lt (qlt x (List.mem_of_mem_erase hx))
          · simp only; omega
        · simp only [hidr]
          rw [List.nodup_append]
          exact ⟨qnd.erase _, by simp, by
            intro a ha b hb; simp at hb; subst hb; intro e; subst e; exact hnn (List.mem_of_mem_erase ha)⟩
        · exact Nat.lt_succ_of_lt (wlt w hw)
        · exact ⟨Nat.lt_succ_of_lt (rlt p hp).1, Nat.lt_succ_of_lt (rlt p hp).2⟩
        · simp only [hidr]
          refine List.Sublist.trans ?_ (List.sublist_append_left _ _)
          have := wsub.erase f.id
          rwa [List.erase_of_not_mem] at this
          intro hm
          obtain ⟨w, hw, e⟩ := List.mem_map.mp hm
          exact hwf w hw e
        · intro w hw; simp only [hidr, hlr]; exact hpre _ (wpre w hw)
        · intro w hw
          exact mem_removeFut _ _ _ (List.mem_append_left _ (wpend w hw)) (hwf w hw)
        · intro w hw; rw [hdm] at hw; simp only [hidr, hlr]; exact hpre _ (dpre w hw)
        · intro w hw; rw [hdm] at hw
          exact mem_removeFut _ _ _ (List.mem_append_left _ (dcanc w hw)) (hdf w hw)
        · intro p hp hp2 hm
          simp only [hidr, List.mem_append, List.mem_singleton] at hm
          rcases hm with hm | hm
          · exact rok p hp hp2 (List.mem_of_mem_erase hm)
          · have := (rlt p hp).2; omega
        · rw [hdm]; simp only [hlr]; exact cnt2
        · exact Nat.lt_succ_of_lt (sn x hx)
      · intro he
        unfold Exact at he ⊢
        rw [hdm]; simp only [hlr]; exact he
    · -- suspends
      rename_i hc
      have hfe : f = ⟨f.id, false⟩ := by cases f; simp_all
      have hdm := hd0 { s with
          next := s.next + 1, q := s.q ++ [⟨s.next, false⟩],
          waiting := s.waiting ++ [⟨s.next, f.id⟩] } rfl hids
      have hle : (s.q ++ [(⟨s.next, false⟩ : Fut)]).length = s.q.length + 1 := by simp
      refine ⟨?_, ?_, by simp⟩
      · refine ⟨sp, ?_, ?_, ?_, fun p hp => ?_, ?_, ?_, ?_, ?_, by rw [hdm]; exact dnd, ?_, ?_, ?_, cnt1, ?_,
          oksort, ?_, ss, so, ?_, fun x hx => ?_⟩
        · intro x hx
          simp only [hids, List.mem_append, List.mem_singleton] at hx
          rcases hx with hx | hx
          · exact Nat.lt_succ_of_lt (qlt x hx)
          · simp only; omega
        · simp only [hids]
          rw [List.nodup_append]
          exact ⟨qnd, by simp, by intro a ha b hb; simp at hb; subst hb; intro e; subst e; exact hnn ha⟩
        · intro w hw
          rcases List.mem_append.mp hw with hw | hw
          · exact Nat.lt_succ_of_lt (wlt w hw)
          · simp at hw; subst hw; simp
        · exact ⟨Nat.lt_succ_of_lt (rlt p hp).1, Nat.lt_succ_of_lt (rlt p hp).2⟩
        · simp only [List.map_append, List.map_cons, List.map_nil]
          rw [List.pairwise_append]
          refine ⟨wsort, by simp, ?_⟩
          intro a ha b hb
          simp at hb; subst hb
          obtain ⟨w, hw, rfl⟩ := List.mem_map.mp ha
          exact wlt w hw
        · simp only [hids, List.map_append, List.map_cons, List.map_nil]
          have h1 : (s.waiting.map (·.awaits)).Sublist ((ids s.q).take (s.q.length - s.size)) := by
            have hsp := List.take_append_drop (s.q.length - s.size) (ids s.q)
            rw [← hsp] at wsub
            obtain ⟨l1, l2, he, hs1, hs2⟩ := List.sublist_append_iff.mp wsub
            have : l2 = [] := by
              cases l2 with
              | nil => rfl
              | cons x l2 =>
                exfalso
                have hx : x ∈ s.waiting.map (·.awaits) := by rw [he]; simp
                obtain ⟨w, hw, rfl⟩ := List.mem_map.mp hx
                have hnd := qnd
                rw [← hsp, List.nodup_append] at hnd
                exact hnd.2.2 _ (wpre w hw) _ (hs2.subset (by simp)) rfl
            rw [he, this, List.append_nil]; exact hs1
          have h2 : [f.id].Sublist ((ids s.q).drop (s.q.length - s.size)) := by
            rw [List.drop_eq_getElem_cons (by rw [hlen]; exact hlt), hfi]
            exact List.Sublist.cons_cons _ (List.nil_sublist _)
          have := h1.append h2
          rw [List.take_append_drop] at this
          exact this.trans (List.sublist_append_left _ _)
        · intro w hw
          simp only [hids, hle, htk]
          rcases List.mem_append.mp hw with hw | hw
          · simp [wpre w hw]
          · simp at hw; subst hw; simp
        · intro w hw
          rcases List.mem_append.mp hw with hw | hw
          · exact List.mem_append_left _ (wpend w hw)
          · simp at hw; subst hw; exact List.mem_append_left _ (hfe ▸ hfm)
        · intro w hw; rw [hdm] at hw; simp only [hids, hle, htk]; simp [dpre w hw]
        · intro w hw; rw [hdm] at hw; exact List.mem_append_left _ (dcanc w hw)
        · intro p hp hp2 hm
          simp only [hids, List.mem_append, List.mem_singleton] at hm
          rcases hm with hm | hm
          · exact rok p hp hp2 hm
          · have := (rlt p hp).2; omega
        · rw [hdm]
          simp only [okReady, List.length_append, List.length_cons, List.length_nil] at cnt2 ⊢
          omega
        · intro r hr w hw
          rcases List.mem_append.mp hw with hw | hw
          · exact okw r hr w hw
          · simp at hw; subst hw
            exact (rlt _ (mem_okReady.mp hr)).1
        · intro x hx w hw
          rcases List.mem_append.mp hw with hw | hw
          · exact sw x hx w hw
          · simp at hw; subst hw; exact sn x hx
        · exact Nat.lt_succ_of_lt (sn x hx)
      · intro he
        unfold Exact at he ⊢
        rw [hdm]
        simp only [okReady, List.length_append, List.length_cons, List.length_nil] at he ⊢
        omega
  · -- acquired at once
    rename_i hgt
    simp only [List.length_append, List.length_cons, List.length_nil] at hgt
    have hdm := hd0 { s with next := s.next + 1, q := s.q ++ [⟨s.next, false⟩], holders := s.holders ++ [s.next] } rfl hids
    have hw0 : s.waiting = [] := by
      cases hw : s.waiting with
      | nil => rfl
      | cons w l =>
        have := wpre w (by simp [hw])
        have h0 : s.q.length - s.size = 0 := by omega
        rw [h0] at this; simp at this
    have hd00 : doomed s = [] := by
      cases hw : doomed s with
      | nil => rfl
      | cons w l =>
        have := dpre w (by simp [hw])
        have h0 : s.q.length - s.size = 0 := by omega
        rw [h0] at this; simp at this
    refine ⟨?_, ?_, by simp⟩
    · refine ⟨sp, ?_, ?_, ?_, fun p hp => ?_, wsort, ?_, ?_, ?_, by rw [hdm]; exact dnd, ?_, ?_, ?_, ?_, ?_,
        oksort, okw, ss, so, sw, fun x hx => ?_⟩
      · intro x hx
        simp only [hids, List.mem_append, List.mem_singleton] at hx
        rcases hx with hx | hx
        · exact Nat.lt_succ_of_lt (qlt x hx)
        · simp only; omega
      · simp only [hids]
        rw [List.nodup_append]
        exact ⟨qnd, by simp, by intro a ha b hb; simp at hb; subst hb; intro e; subst e; exact hnn ha⟩
      · intro w hw; exact Nat.lt_succ_of_lt (wlt w hw)
      · exact ⟨Nat.lt_succ_of_lt (rlt p hp).1, Nat.lt_succ_of_lt (rlt p hp).2⟩
      · simp [hw0]
      · simp [hw0]
      · simp [hw0]
      · rw [hdm, hd00]; simp
      · rw [hdm, hd00]; simp
      · intro p hp hp2 hm
        simp only [hids, List.mem_append, List.mem_singleton] at hm
        rcases hm with hm | hm
        · exact rok p hp hp2 hm
        · have := (rlt p hp).2; omega
      · simp only [okReady, List.length_append, List.length_cons, List.length_nil] at cnt1 cnt2 ⊢
        omega
      · rw [hdm]
        simp only [okReady, List.length_append, List.length_cons, List.length_nil] at cnt1 cnt2 ⊢
        omega
      · exact Nat.lt_succ_of_lt (sn x hx)
    · intro he
      unfold Exact at he ⊢
      rw [hdm]
      simp only [okReady, List.length_append, List.length_cons, List.length_nil] at he ⊢
      omega

/-! ### waking -/

theorem release_inv (k : Nat) (s : State) (h : Inv s) (holder : Nat) : Inv (s.release holder).1 ∧ (s.release holder).2 ≠ .indexError ∧
    ((∀ f q, s.q = f :: q → ∀ w ∈ doomed s, w.awaits ≠ f.id) → Exact s k → Exact (s.release holder).1 k) := by
  have h' := h
  have hand := h.anodup
  obtain ⟨sp, qlt, qnd, wlt, rlt, wsort, wsub, wpre, wpend, dnd, dpre, dcanc, rok, cnt1, cnt2, oksort, okw, ss, so, sw, sn⟩ := h
  unfold State.release
  split
  · rename_i hh
    have hhl : (s.holders.erase holder).length = s.holders.length - 1 := List.length_erase_of_mem hh
    have hhp : 0 < s.holders.length := List.length_pos_of_mem hh
    split
    · rename_i hq
      rw [hq] at cnt2; simp only [List.length_nil] at cnt2; omega
    · rename_i f q hq
      have hid : ids s.q = f.id :: ids q := by rw [hq]; rfl
      have hql : s.q.length = q.length + 1 := by rw [hq]; rfl
      have qnd' := qnd
      rw [hid] at qnd
      obtain ⟨hfq, hqnd⟩ := List.nodup_cons.mp qnd
      -- prefixes shrink by the head
      have hpre : ∀ x ∈ (ids s.q).take (s.q.length - s.size), x ≠ f.id → x ∈ (ids q).take (q.length - s.size) := by
        intro x hx hne
        rw [hid, hql] at hx
        by_cases hs : s.size ≤ q.length
        · rw [show q.length + 1 - s.size = (q.length - s.size) + 1 by omega, List.take_succ_cons] at hx
          rcases List.mem_cons.mp hx with hx | hx
          · exact absurd hx hne
          · exact hx
        · rw [show q.length + 1 - s.size = 0 by omega] at hx; simp at hx
      -- doomed calls
      have hdq : ∀ ready', (ready'.filter (fun p => !p.2)).map (·.1) = (s.ready.filter (fun p => !p.2)).map (·.1) →
          ∀ s' : State, s'.ready = ready' → s'.q = q → doomed s' = (doomed s).filter (·.awaits ≠ f.id) := by
        intro ready' hr s' h1 h2
        unfold doomed
        rw [h1, h2, hr, List.filter_filter]
        apply List.filter_congr
        intro w _
        rw [hid]
        by_cases hw : w.awaits = f.id
        · simp [hw, hfq]
        · simp [hw]
      have hdsub : ((doomed s).filter (·.awaits ≠ f.id)).Sublist (doomed s) := List.filter_sublist
      simp only
      split
      · -- the oldest future is cancelled already
        rename_i hc
        have hwf : ∀ w ∈ s.waiting, w.awaits ≠ f.id := by
          intro w hw e
          have h1 := wpend w hw
          rw [e] at h1
          refine fut_unique s.q qnd' f.id h1 ?_
          rw [hq]; have : f = ⟨f.id, true⟩ := by cases f; simp_all
          rw [← this]; simp
        have hdm := hdq s.ready rfl { s with q := q, holders := s.holders.erase holder } rfl rfl
        refine ⟨?_, by simp, ?_⟩
        · refine ⟨sp, fun x hx => qlt x (by rw [hid]; exact List.mem_cons_of_mem _ hx), hqnd, wlt, rlt, wsort, ?_, ?_, ?_, ?_,
            ?_, ?_, ?_, ?_, ?_, oksort, okw, ss, so, sw, sn⟩
          · rw [hid] at wsub
            refine sublist_tail _ _ _ wsub ?_
            intro hm
            obtain ⟨w, hw, e⟩ := List.mem_map.mp hm
            exact hwf w hw e
          · intro w hw; exact hpre _ (wpre w hw) (hwf w hw)
          · intro w hw
            have := wpend w hw
            rw [hq] at this
            rcases List.mem_cons.mp this with e | hm
            · exact absurd (congrArg Fut.id e) (hwf w hw)
            · exact hm
          · rw [hdm]; exact (hdsub.map _).nodup dnd
          · rw [hdm]; intro w hw
            simp only [List.mem_filter, decide_eq_true_eq] at hw
            exact hpre _ (dpre w hw.1) hw.2
          · rw [hdm]; intro w hw
            simp only [List.mem_filter, decide_eq_true_eq] at hw
            have := dcanc w hw.1
            rw [hq] at this
            rcases List.mem_cons.mp this with e | hm
            · exact absurd (congrArg Fut.id e) hw.2
            · exact hm
          · intro p hp hp2 hm; exact rok p hp hp2 (by rw [hid]; exact List.mem_cons_of_mem _ hm)
          · simp only [okReady, hhl] at cnt1 ⊢; omega
          · rw [hdm]
            have := hdsub.length_le
            simp only [okReady, hhl] at cnt2 ⊢
            omega
        · intro hg he
          unfold Exact at he ⊢
          rw [hdm]
          have : (doomed s).filter (·.awaits ≠ f.id) = doomed s := by
            apply List.filter_eq_self.mpr
            intro w hw
            simpa using hg f q hq w hw
          rw [this]
          simp only [okReady, hhl] at he ⊢
          omega
      · -- the oldest future is pending: its waiter is resumed
        rename_i hc
        have hfe : f = ⟨f.id, false⟩ := by cases f; simp_all
        have hfm : (⟨f.id, false⟩ : Fut) ∈ s.q := by rw [hq, ← hfe]; simp
        have hdf : ∀ w ∈ doomed s, w.awaits ≠ f.id := fun w hw e =>
          fut_unique s.q qnd' f.id hfm (e ▸ dcanc w hw)
        have hdself : (doomed s).filter (·.awaits ≠ f.id) = doomed s := by
          apply List.filter_eq_self.mpr
          intro w hw
          simpa using hdf w hw
        unfold State.wake
        rcases split_awaits s.waiting hand f.id with ⟨e1, e2, e3⟩ | ⟨l1, w, l2, e0, e1, e2, e3⟩
        · -- nobody waits for it
          simp only [e1, e2, List.reverse_nil, List.map_nil, List.append_nil]
          have hdm := hdq s.ready rfl { s with q := q, holders := s.holders.erase holder } rfl rfl
          rw [hdself] at hdm
          refine ⟨?_, by simp, ?_⟩
          · refine ⟨sp, fun x hx => qlt x (by rw [hid]; exact List.mem_cons_of_mem _ hx), hqnd, wlt, rlt, wsort, ?_, ?_, ?_, ?_,
              ?_, ?_, ?_, ?_, ?_, oksort, okw, ss, so, sw, sn⟩
            · rw [hid] at wsub
              refine sublist_tail _ _ _ wsub ?_
              intro hm
              obtain ⟨w, hw, e⟩ := List.mem_map.mp hm
              exact e3 w hw e
            · intro w hw; exact hpre _ (wpre w hw) (e3 w hw)
            · intro w hw
              have := wpend w hw
              rw [hq] at this
              rcases List.mem_cons.mp this with e | hm
              · exact absurd (congrArg Fut.id e) (e3 w hw)
              · exact hm
            · rw [hdm]; exact dnd
            · rw [hdm]; intro w hw; exact hpre _ (dpre w hw) (hdf w hw)
            · rw [hdm]; intro w hw
              have := dcanc w hw
              rw [hq] at this
              rcases List.mem_cons.mp this with e | hm
              · exact absurd (congrArg Fut.id e) (hdf w hw)
              · exact hm
            · intro p hp hp2 hm; exact rok p hp hp2 (by rw [hid]; exact List.mem_cons_of_mem _ hm)
            · simp only [okReady, hhl] at cnt1 ⊢; omega
            · rw [hdm]
              simp only [okReady, hhl] at cnt2 ⊢
              omega
          · intro _ he
            unfold Exact at he ⊢
            rw [hdm]
            simp only [okReady, hhl] at he ⊢
            omega
        · -- it is the first of the waiting calls
          have hl1 : l1 = [] := by
            rw [hid] at wsub
            obtain ⟨l', hl', _⟩ := sublist_head _ _ _ wsub qnd (by rw [e0]; simp [e1])
            rw [e0] at hl' hand
            cases l1 with
            | nil => rfl
            | cons x l1 =>
              exfalso
              simp only [List.cons_append, List.map_cons, List.cons.injEq] at hl'
              simp only [List.cons_append, List.map_cons, List.map_append, List.nodup_cons] at hand
              exact hand.1 (by simp [hl'.1, e1])
          subst hl1
          simp only [List.nil_append] at e0 e3
          simp only [e2, e3, List.reverse_cons, List.reverse_nil, List.nil_append, List.map_cons, List.map_nil]
          have hw2 : ∀ x ∈ l2, x.awaits ≠ f.id := by
            intro x hx e
            rw [e0] at hand
            simp only [List.map_cons, List.nodup_cons] at hand
            exact hand.1 (by rw [e1, ← e]; exact List.mem_map_of_mem hx)
          have hmem : ∀ x ∈ l2, x ∈ s.waiting := fun x hx => by rw [e0]; exact List.mem_cons_of_mem _ hx
          have hwm : w ∈ s.waiting := by rw [e0]; simp
          have hdm := hdq (s.ready ++ [(w, true)]) (by simp)
            { s with q := q, holders := s.holders.erase holder, waiting := l2, ready := s.ready ++ [(w, true)] } rfl rfl
          rw [hdself] at hdm
          have hok : okReady { s with
              q := q, holders := s.holders.erase holder, waiting := l2, ready := s.ready ++ [(w, true)] } =
              okReady s ++ [w] := by simp [okReady]
          have hwl : s.waiting.length = l2.length + 1 := by rw [e0]; rfl
          refine ⟨?_, by simp, ?_⟩
          · refine ⟨sp, fun x hx => qlt x (by rw [hid]; exact List.mem_cons_of_mem _ hx), hqnd, fun x hx => wlt x (hmem x hx),
              ?_, ?_, ?_, ?_, ?_, ?_, ?_, ?_, ?_, ?_, ?_, ?_, ?_, ss, ?_, fun x hx y hy => sw x hx y (hmem y hy), sn⟩
            · intro p hp
              rcases List.mem_append.mp hp with hp | hp
              · exact rlt p hp
              · simp at hp; subst hp
                exact ⟨wlt w hwm, by rw [e1]; exact qlt _ (by rw [hid]; simp)⟩
            · rw [e0] at wsort; simpa using wsort.of_cons
            · rw [hid, e0] at wsub
              obtain ⟨l', hl', hsub⟩ := sublist_head _ _ _ wsub qnd (by simp [e1])
              simp only [List.map_cons, List.cons.injEq] at hl'
              rw [hl'.2]; exact hsub
            · intro x hx; exact hpre _ (wpre x (hmem x hx)) (hw2 x hx)
            · intro x hx
              have := wpend x (hmem x hx)
              rw [hq] at this
              rcases List.mem_cons.mp this with e | hm
              · exact absurd (congrArg Fut.id e) (hw2 x hx)
              · exact hm
            · rw [hdm]; exact dnd
            · rw [hdm]; intro w hw; exact hpre _ (dpre w hw) (hdf w hw)
            · rw [hdm]; intro w hw
              have := dcanc w hw
              rw [hq] at this
              rcases List.mem_cons.mp this with e | hm
              · exact absurd (congrArg Fut.id e) (hdf w hw)
              · exact hm
            · intro p hp hp2 hm
              rcases List.mem_append.mp hp with hp | hp
              · exact rok p hp hp2 (by rw [hid]; exact List.mem_cons_of_mem _ hm)
              · simp at hp; subst hp
                rw [e1] at hm; exact hfq hm
            · rw [hok]; simp only [hhl, List.length_append, List.length_cons, List.length_nil]; omega
            · rw [hok, hdm]
              simp only [hhl, List.length_append, List.length_cons, List.length_nil]
              omega
            · rw [hok, List.map_append, List.pairwise_append]
              refine ⟨oksort, by simp, ?_⟩
              intro a ha b hb
              simp at hb; subst hb
              obtain ⟨r, hr, rfl⟩ := List.mem_map.mp ha
              exact okw r hr w hwm
            · rw [hok]
              intro r hr x hx
              rcases List.mem_append.mp hr with hr | hr
              · exact okw r hr x (hmem x hx)
              · simp at hr; subst hr
                rw [e0] at wsort
                simp only [List.map_cons, List.pairwise_cons] at wsort
                exact wsort.1 _ (List.mem_map_of_mem hx)
            · rw [hok]
              intro x hx r hr
              rcases List.mem_append.mp hr with hr | hr
              · exact so x hx r hr
              · simp at hr; subst hr; exact sw x hx r hwm
          · intro _ he
            unfold Exact at he ⊢
            rw [hok, hdm]
            simp only [hhl, List.length_append, List.length_cons, List.length_nil]
            omega
  · exact ⟨h', by simp, fun _ he => he⟩

/-! ### cancelling a future -/

theorem cancelFut_inv (k : Nat) (s : State) (h : Inv s) (fut : Nat) : Inv (s.cancelFut fut) ∧ (Exact s k → Exact (s.cancelFut fut) k) := by
  have h' := h
  have hand := h.anodup
  obtain ⟨sp, qlt, qnd, wlt, rlt, wsort, wsub, wpre, wpend, dnd, dpre, dcanc, rok, cnt1, cnt2, oksort, okw, ss, so, sw, sn⟩ := h
  unfold State.cancelFut
  split
  · rename_i hm
    simp only
    generalize hq' : (s.q.map fun f => if f.id = fut then ({ id := f.id, cancelled := true } : Fut) else f) = q'
    have hid : ids q' = ids s.q := by
      rw [← hq', ids, List.map_map, ids]
      apply List.map_congr_left
      intro f _
      simp only [Function.comp_apply]
      split <;> rfl
    have hql : q'.length = s.q.length := by rw [← hq']; simp
    have hft : (⟨fut, true⟩ : Fut) ∈ q' := by
      rw [← hq']; exact List.mem_map.mpr ⟨_, hm, by simp⟩
    have hkeep : ∀ i b, (⟨i, b⟩ : Fut) ∈ s.q → i ≠ fut → (⟨i, b⟩ : Fut) ∈ q' := by
      intro i b hb hne
      rw [← hq']; exact List.mem_map.mpr ⟨_, hb, by simp [hne]⟩
    have hdf : ∀ w ∈ doomed s, w.awaits ≠ fut := fun w hw e => fut_unique s.q qnd fut hm (e ▸ dcanc w hw)
    unfold State.wake
    rcases split_awaits s.waiting hand fut with ⟨e1, e2, e3⟩ | ⟨l1, w, l2, e0, e1, e2, e3⟩
    · simp only [e1, e2, List.reverse_nil, List.map_nil, List.append_nil]
      have hdm : doomed { s with q := q' } = doomed s := by unfold doomed; simp only [hid]
      have hok : okReady { s with q := q' } = okReady s := rfl
      refine ⟨?_, ?_⟩
      · refine ⟨sp, by simpa [hid] using qlt, by simpa [hid] using qnd, wlt, rlt, wsort, by simpa [hid] using wsub,
          by simpa [hid, hql] using wpre, fun w hw => hkeep _ _ (wpend w hw) (e3 w hw), by rw [hdm]; exact dnd,
          by rw [hdm]; simpa [hid, hql] using dpre, ?_, by simpa [hid] using rok, cnt1,
          by rw [hdm, hok]; simpa [hql] using cnt2, oksort, okw, ss, so, sw, sn⟩
        rw [hdm]; intro w hw; exact hkeep _ _ (dcanc w hw) (hdf w hw)
      · intro he; unfold Exact at he ⊢; rw [hdm, hok]; simpa [hql] using he
    · simp only [e2, e3, List.reverse_cons, List.reverse_nil, List.nil_append, List.map_cons, List.map_nil]
      have hwm : w ∈ s.waiting := by rw [e0]; simp
      have hmem : ∀ x ∈ l1 ++ l2, x ∈ s.waiting := by
        intro x hx; rw [e0]; simp only [List.mem_append, List.mem_cons] at hx ⊢
        rcases hx with hx | hx
        · exact Or.inl hx
        · exact Or.inr (Or.inr hx)
      have hsubl : (l1 ++ l2).Sublist s.waiting := by
        rw [e0]; exact List.Sublist.append (List.Sublist.refl _) (List.sublist_cons_self _ _)
      have hne : ∀ x ∈ l1 ++ l2, x.awaits ≠ fut := by
        intro x hx
        rw [← e3] at hx
        simpa using (List.mem_filter.mp hx).2
      have hdm : doomed { s with q := q', waiting := l1 ++ l2, ready := s.ready ++ [(w, false)] } = doomed s ++ [w] := by
        unfold doomed
        simp only [hid, List.filter_append, List.map_append]
        congr 1
        have : w.awaits ∈ ids s.q := by rw [e1]; exact List.mem_map.mpr ⟨_, hm, rfl⟩
        simp [this]
      have hok : okReady { s with q := q', waiting := l1 ++ l2, ready := s.ready ++ [(w, false)] } = okReady s := by
        simp [okReady]
      have hwl : s.waiting.length = (l1 ++ l2).length + 1 := by rw [e0]; simp; omega
      refine ⟨?_, ?_⟩
      · refine ⟨sp, by simpa [hid] using qlt, by simpa [hid] using qnd, fun x hx => wlt x (hmem x hx), ?_,
          wsort.sublist (hsubl.map (·.id)), ?_, ?_, ?_, ?_, ?_, ?_, ?_, ?_, ?_, ?_, ?_, ss, ?_,
          fun x hx y hy => sw x hx y (hmem y hy), sn⟩
        · intro p hp
          rcases List.mem_append.mp hp with hp | hp
          · exact rlt p hp
          · simp at hp; subst hp
            exact ⟨wlt w hwm, by rw [e1]; exact qlt _ (List.mem_map.mpr ⟨_, hm, rfl⟩)⟩
        · simp only [hid]; exact (hsubl.map (·.awaits)).trans wsub
        · intro x hx; simp only [hid, hql]; exact wpre x (hmem x hx)
        · intro x hx; exact hkeep _ _ (wpend x (hmem x hx)) (hne x hx)
        · rw [hdm, List.map_append, List.nodup_append]
          refine ⟨dnd, by simp, ?_⟩
          intro a ha b hb
          simp at hb; subst hb
          obtain ⟨r, hr, rfl⟩ := List.mem_map.mp ha
          rw [e1]; exact hdf r hr
        · rw [hdm]; intro x hx; simp only [hid, hql]
          rcases List.mem_append.mp hx with hx | hx
          · exact dpre x hx
          · simp at hx; subst hx; exact wpre x hwm
        · rw [hdm]; intro x hx
          rcases List.mem_append.mp hx with hx | hx
          · exact hkeep _ _ (dcanc x hx) (hdf x hx)
          · simp at hx; subst hx; rw [e1]; exact hft
        · intro p hp hp2
          simp only [hid]
          rcases List.mem_append.mp hp with hp | hp
          · exact rok p hp hp2
          · simp at hp; subst hp; simp at hp2
        · rw [hok]; exact cnt1
        · rw [hok, hdm]; simp only [hql, List.length_append, List.length_cons, List.length_nil] at hwl ⊢; omega
        · rw [hok]; exact oksort
        · rw [hok]; intro r hr x hx; exact okw r hr x (hmem x hx)
        · rw [hok]; exact so
      · intro he; unfold Exact at he ⊢; rw [hdm, hok]
        simp only [hql, List.length_append, List.length_cons, List.length_nil] at hwl ⊢; omega
  · exact ⟨h', id⟩

/-! ### cancelling a task -/

theorem cancel_inv (k : Nat) (s : State) (h : Inv s) (id : Nat) : Inv (s.cancel id) ∧
    ((∀ w ∈ okReady s, w.id ≠ id) → Exact s k → Exact (s.cancel id) k) := by
  unfold State.cancel
  split
  · rename_i w _
    exact ⟨(cancelFut_inv k s h w.awaits).1, fun _ => (cancelFut_inv k s h w.awaits).2⟩
  · obtain ⟨sp, qlt, qnd, wlt, rlt, wsort, wsub, wpre, wpend, dnd, dpre, dcanc, rok, cnt1, cnt2, oksort, okw, ss, so, sw, sn⟩ := h
    generalize hr : (s.ready.map fun p => if p.1.id = id then (p.1, false) else p) = ready'
    have hoks : (okReady { s with ready := ready' }).Sublist (okReady s) := by
      unfold okReady
      apply List.Sublist.map
      simp only
      rw [← hr]
      generalize s.ready = l
      induction l with
      | nil => simp
      | cons p l ih =>
        obtain ⟨w, b⟩ := p
        by_cases hp : w.id = id
        · cases b
          · simpa [hp] using ih
          · simp only [List.map_cons, hp, if_true]
            exact List.Sublist.cons _ (by simpa using ih)
        · cases b
          · simpa [hp] using ih
          · simpa [hp] using ih
    have hdm : doomed { s with ready := ready' } = doomed s := by
      unfold doomed
      simp only
      rw [← hr]
      clear hr hoks dnd dpre dcanc cnt1 cnt2 oksort okw so
      have gen : ∀ l : List (Waiter × Bool), (∀ p ∈ l, p.2 = true → p.1.awaits ∉ ids s.q) →
          (List.map (·.1) ((l.map fun p => if p.1.id = id then (p.1, false) else p).filter (fun p => !p.2))).filter
            (fun w => decide (w.awaits ∈ ids s.q)) =
          (List.map (·.1) (l.filter (fun p => !p.2))).filter (fun w => decide (w.awaits ∈ ids s.q)) := by
        intro l
        induction l with
        | nil => intro _; rfl
        | cons p l ih =>
          intro hrok
          have ih' := ih (fun p hp => hrok p (List.mem_cons_of_mem _ hp))
          have hp0 := hrok p (by simp)
          obtain ⟨w, b⟩ := p
          simp only at hp0
          by_cases hp : w.id = id
          · cases b
            · simp only [List.map_cons, hp, if_true, List.filter_cons, Bool.not_false]
              rw [ih']
            · simp only [List.map_cons, hp, if_true, List.filter_cons, Bool.not_false, Bool.not_true]
              have hp1 := hp0 rfl
              simpa [hp1] using ih'
          · cases b
            · simp only [List.map_cons, hp, if_false, List.filter_cons, Bool.not_false, if_true]
              rw [ih']
            · simp only [List.map_cons, hp, if_false, List.filter_cons, Bool.not_true]
              simpa using ih'
      exact gen s.ready rok
    have hmr : ∀ p ∈ ready', ∃ p0 ∈ s.ready, p0.1 = p.1 ∧ (p.2 = true → p0.2 = true) := by
      intro p hp
      rw [← hr] at hp
      obtain ⟨p0, h0, rfl⟩ := List.mem_map.mp hp
      refine ⟨p0, h0, ?_, ?_⟩ <;> split <;> simp
    refine ⟨⟨sp, qlt, qnd, wlt, ?_, wsort, wsub, wpre, wpend, by rw [hdm]; exact dnd, by rw [hdm]; exact dpre,
      by rw [hdm]; exact dcanc, ?_, ?_, ?_, oksort.sublist (hoks.map (·.id)), fun r hr => okw r (hoks.subset hr), ss,
      fun x hx r hr => so x hx r (hoks.subset hr), sw, sn⟩, ?_⟩
    · intro p hp
      obtain ⟨p0, h0, e, _⟩ := hmr p hp
      rw [← e]; exact rlt p0 h0
    · intro p hp hp2
      obtain ⟨p0, h0, e, h2⟩ := hmr p hp
      rw [← e]; exact rok p0 h0 (h2 hp2)
    · have := hoks.length_le
      simp only at this ⊢
      omega
    · rw [hdm]
      have := hoks.length_le
      simp only at this ⊢
      omega
    · intro hg he
      have : ready' = s.ready ∨ okReady { s with ready := ready' } = okReady s := by
        right
        unfold okReady at hg ⊢
        simp only
        rw [← hr]
        revert hg
        generalize s.ready = l
        intro hg
        induction l with
        | nil => rfl
        | cons p l ih =>
          obtain ⟨w, b⟩ := p
          have ih' := ih (fun w hw => hg w (by
            simp only [List.mem_map, List.mem_filter] at hw ⊢
            obtain ⟨p, ⟨h1, h2⟩, h3⟩ := hw
            exact ⟨p, ⟨List.mem_cons_of_mem _ h1, h2⟩, h3⟩))
          cases b
          · by_cases hp : w.id = id
            · simpa [hp] using ih'
            · simpa [hp] using ih'
          · have hp : w.id ≠ id := hg w (by simp)
            simpa [hp] using ih'
      unfold Exact at he ⊢
      rw [hdm]
      rcases this with e | e
      · subst e; exact he
      · rw [e]; exact he

/-! ### running -/

theorem run_inv (k : Nat) (s : State) (h : Inv s) : Inv s.run.1 ∧ (Exact s k → Exact s.run.1 k) := by
  have h' := h
  obtain ⟨sp, qlt, qnd, wlt, rlt, wsort, wsub, wpre, wpend, dnd, dpre, dcanc, rok, cnt1, cnt2, oksort, okw, ss, so, sw, sn⟩ := h
  unfold State.run
  split
  · exact ⟨h', id⟩
  · rename_i w ready hr
    have hok : okReady s = w :: (ready.filter (·.2)).map (·.1) := by simp [okReady, hr]
    have hdm : doomed { s with ready := ready, holders := s.holders ++ [w.id], served := s.served ++ [w.id] } = doomed s := by
      simp [doomed, hr]
    have hokm : w ∈ okReady s := by rw [hok]; simp
    have hwr : (w, true) ∈ s.ready := by rw [hr]; simp
    rw [hok] at cnt1 cnt2 oksort okw so
    simp only [List.map_cons, List.pairwise_cons] at oksort
    refine ⟨⟨sp, qlt, qnd, wlt, fun p hp => rlt p (by rw [hr]; exact List.mem_cons_of_mem _ hp), wsort, wsub, wpre, wpend,
      by rw [hdm]; exact dnd, by rw [hdm]; exact dpre, by rw [hdm]; exact dcanc,
      fun p hp => rok p (by rw [hr]; exact List.mem_cons_of_mem _ hp), ?_, ?_, oksort.2,
      fun r hr => okw r (List.mem_cons_of_mem _ hr), ?_, ?_, ?_, ?_⟩, ?_⟩
    · simp only [okReady, List.length_append, List.length_cons, List.length_nil] at cnt1 ⊢; omega
    · rw [hdm]; simp only [okReady, List.length_append, List.length_cons, List.length_nil] at cnt2 ⊢; omega
    · simp only
      rw [List.pairwise_append]
      refine ⟨ss, by simp, ?_⟩
      intro a ha b hb
      simp at hb; subst hb
      exact so a ha w (by simp)
    · intro x hx r hr
      rcases List.mem_append.mp hx with hx | hx
      · exact so x hx r (List.mem_cons_of_mem _ hr)
      · simp at hx; subst hx
        exact oksort.1 _ (List.mem_map_of_mem hr)
    · intro x hx y hy
      rcases List.mem_append.mp hx with hx | hx
      · exact sw x hx y hy
      · simp at hx; subst hx
        exact okw w (by simp) y hy
    · intro x hx
      rcases List.mem_append.mp hx with hx | hx
      · exact sn x hx
      · simp at hx; subst hx; exact (rlt _ hwr).1
    · intro he
      unfold Exact at he ⊢
      rw [hdm]
      rw [hok] at he
      simp only [okReady, List.length_append, List.length_cons, List.length_nil] at he ⊢
      omega
  · rename_i w ready hr
    have hok : okReady { s with ready := ready, q := removeFut s.q w.awaits } = okReady s := by simp [okReady, hr]
    have hwr : (w, false) ∈ s.ready := by rw [hr]; simp
    by_cases hin : w.awaits ∈ ids s.q
    · have hwd : w ∈ doomed s := mem_doomed.mpr ⟨hwr, hin⟩
      have hd0 : doomed s = w :: ((ready.filter (fun p => !p.2)).map (·.1)).filter (fun w => decide (w.awaits ∈ ids s.q)) := by
        simp [doomed, hr, hin]
      have hdn := dnd
      rw [hd0] at hdn
      simp only [List.map_cons, List.nodup_cons] at hdn
      have hdm : doomed { s with ready := ready, q := removeFut s.q w.awaits } =
          ((ready.filter (fun p => !p.2)).map (·.1)).filter (fun w => decide (w.awaits ∈ ids s.q)) := by
        unfold doomed
        simp only
        apply List.filter_congr
        intro x hx
        rw [removeFut_ids]
        by_cases hxi : x.awaits ∈ ids s.q
        · have : x.awaits ≠ w.awaits := by
            intro e
            apply hdn.1
            rw [← e]
            exact List.mem_map_of_mem (List.mem_filter.mpr ⟨hx, by simpa using hxi⟩)
          simp [List.mem_erase_of_ne this, hxi]
        · have : x.awaits ∉ (ids s.q).erase w.awaits := fun hm => hxi (List.mem_of_mem_erase hm)
          simp [hxi, this]
      have hsubd : ∀ x ∈ ((ready.filter (fun p => !p.2)).map (·.1)).filter (fun w => decide (w.awaits ∈ ids s.q)),
          x ∈ doomed s ∧ x.awaits ≠ w.awaits := by
        intro x hx
        refine ⟨by rw [hd0]; exact List.mem_cons_of_mem _ hx, ?_⟩
        intro e
        exact hdn.1 (by rw [← e]; exact List.mem_map_of_mem hx)
      have hww : ∀ x ∈ s.waiting, x.awaits ≠ w.awaits := fun x hx e =>
        fut_unique s.q qnd w.awaits (e ▸ wpend x hx) (dcanc w hwd)
      have hln := removeFut_length s.q w.awaits hin
      have hpos : 0 < s.q.length := by
        have := List.length_pos_of_mem hin
        simpa [ids] using this
      have hpre : ∀ x ∈ (ids s.q).take (s.q.length - s.size), x ≠ w.awaits →
          x ∈ ((ids s.q).erase w.awaits).take (s.q.length - 1 - s.size) := by
        intro x hx hne
        have := take_erase _ _ _ (dpre w hwd) x hx hne
        rwa [show s.q.length - s.size - 1 = s.q.length - 1 - s.size by omega] at this
      refine ⟨⟨sp, ?_, ?_, wlt, fun p hp => rlt p (by rw [hr]; exact List.mem_cons_of_mem _ hp), wsort, ?_, ?_, ?_, ?_, ?_, ?_,
        ?_, by rw [hok]; exact cnt1, ?_, by rw [hok]; exact oksort, by rw [hok]; exact okw, ss, by rw [hok]; exact so, sw, sn⟩, ?_⟩
      · intro x hx; rw [removeFut_ids] at hx; exact qlt x (List.mem_of_mem_erase hx)
      · rw [removeFut_ids]; exact qnd.erase _
      · simp only [removeFut_ids]
        have := wsub.erase w.awaits
        rwa [List.erase_of_not_mem] at this
        intro hm
        obtain ⟨x, hx, e⟩ := List.mem_map.mp hm
        exact hww x hx e
      · intro x hx; simp only [removeFut_ids, hln]; exact hpre _ (wpre x hx) (hww x hx)
      · intro x hx; exact mem_removeFut _ _ _ (wpend x hx) (hww x hx)
      · rw [hdm]; exact hdn.2
      · rw [hdm]; intro x hx; simp only [removeFut_ids, hln]
        exact hpre _ (dpre x (hsubd x hx).1) (hsubd x hx).2
      · rw [hdm]; intro x hx; exact mem_removeFut _ _ _ (dcanc x (hsubd x hx).1) (hsubd x hx).2
      · intro p hp hp2 hm
        simp only [removeFut_ids] at hm
        exact rok p (by rw [hr]; exact List.mem_cons_of_mem _ hp) hp2 (List.mem_of_mem_erase hm)
      · rw [hok, hdm]
        rw [hd0] at cnt2
        simp only [hln, List.length_cons] at cnt2 ⊢
        omega
      · intro he
        unfold Exact at he ⊢
        rw [hok, hdm]
        rw [hd0] at he
        simp only [hln, List.length_cons] at he ⊢
        omega
    · have hq : removeFut s.q w.awaits = s.q := removeFut_notMem _ _ hin
      have hdm : doomed { s with ready := ready, q := removeFut s.q w.awaits } = doomed s := by
        simp [doomed, hr, hq, hin]
      refine ⟨?_, ?_⟩
      · refine ⟨sp, by simpa [hq] using qlt, by simpa [hq] using qnd, wlt,
          fun p hp => rlt p (by rw [hr]; exact List.mem_cons_of_mem _ hp), wsort, by simpa [hq] using wsub,
          by simpa [hq] using wpre, by simpa [hq] using wpend, by rw [hdm]; exact dnd, by rw [hdm]; simpa [hq] using dpre,
          by rw [hdm]; simpa [hq] using dcanc, ?_, by rw [hok]; exact cnt1, by rw [hok, hdm]; simpa [hq] using cnt2,
          by rw [hok]; exact oksort, by rw [hok]; exact okw, ss, by rw [hok]; exact so, sw, sn⟩
        intro p hp
        simp only [hq]
        exact rok p (by rw [hr]; exact List.mem_cons_of_mem _ hp)
      · intro he
        unfold Exact at he ⊢
        rw [hok, hdm]; simpa [hq] using he

end Verif.Lock
