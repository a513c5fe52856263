import Verif.Pool.Model

/-!
# Properties of the connection pool: who has which protocol

C51.
-/

namespace Verif.Pool

/-! ### Dictionaries of baskets -/

theorem get_nil (k : Key) : Baskets.get [] k = {} := rfl

theorem get_cons (e : Key × Basket) (bs : Baskets) (k : Key) :
    Baskets.get (e :: bs) k = if e.1 = k then e.2 else Baskets.get bs k := by
  unfold Baskets.get
  rw [List.find?_cons]
  by_cases h : e.1 = k <;> simp [h]

theorem get_append (bs cs : Baskets) (k : Key) (h : k ∉ bs.map (·.1)) :
    Baskets.get (bs ++ cs) k = Baskets.get cs k := by
  induction bs with
  | nil => rfl
  | cons e bs ih =>
    simp only [List.map_cons, List.mem_cons, not_or] at h
    rw [List.cons_append, get_cons, if_neg (Ne.symm h.1), ih h.2]

theorem get_append_of_ne (bs : Baskets) (e : Key × Basket) (k : Key) (h : e.1 ≠ k) :
    Baskets.get (bs ++ [e]) k = Baskets.get bs k := by
  induction bs with
  | nil => rw [List.nil_append, get_cons, if_neg h]
  | cons e' bs ih => rw [List.cons_append, get_cons, get_cons, ih]

theorem get_put (bs : Baskets) (k k' : Key) (b : Basket) :
    (bs.put k b).get k' = if k' = k then b else bs.get k' := by
  unfold Baskets.put
  split
  · rename_i hb
    induction bs with
    | nil => rw [List.filter_nil, get_nil, hb]; split <;> rfl
    | cons e bs ih =>
      rw [List.filter_cons]
      by_cases he : e.1 = k
      · rw [if_neg (by simp [he]), ih, get_cons]
        by_cases hk : k' = k
        · rw [if_pos hk, if_pos hk]
        · rw [if_neg hk, if_neg hk, if_neg (fun h => hk (h.symm.trans he))]
      · rw [if_pos (by simp [he]), get_cons, get_cons, ih]
        by_cases hk : k' = k
        · rw [if_pos hk, if_neg (fun h => he (h.trans hk)), if_pos hk]
        · rw [if_neg hk]
          rw [if_neg hk]
  · split
    · rename_i hany
      induction bs with
      | nil => simp at hany
      | cons e bs ih =>
        rw [List.map_cons, get_cons]
        by_cases he : e.1 = k
        · rw [if_pos he]
          by_cases hk : k' = k
          · rw [if_pos hk, hk, if_pos rfl]
          · rw [if_neg (Ne.symm hk), if_neg hk, get_cons, if_neg (fun h => hk (h.symm.trans he))]
            have key : ∀ cs : Baskets, Baskets.get (cs.map fun e => if e.1 = k then (k, b) else e) k' = Baskets.get cs k' := by
              intro cs
              induction cs with
              | nil => rfl
              | cons c cs ih =>
                rw [List.map_cons, get_cons, get_cons, ih]
                by_cases hc : c.1 = k
                · rw [if_pos hc, if_neg (Ne.symm hk), if_neg (fun h => hk (h.symm.trans hc))]
                · rw [if_neg hc]
            exact key bs
        · rw [if_neg he, get_cons]
          have hany' : bs.any (fun x => decide (x.1 = k)) = true := by
            rw [List.any_cons] at hany
            simpa [he] using hany
          rw [ih hany']
          by_cases h2 : e.1 = k'
          · rw [if_pos h2, if_pos h2, if_neg (fun h => he (h2.trans h))]
          · rw [if_neg h2, if_neg h2]
    · rename_i hany
      have hk : k ∉ bs.map (·.1) := by
        intro hm
        obtain ⟨e, he, rfl⟩ := List.mem_map.mp hm
        exact hany (List.any_eq_true.mpr ⟨e, he, by simp⟩)
      by_cases h : k' = k
      · rw [if_pos h, h, get_append _ _ _ hk, get_cons, if_pos rfl]
      · rw [if_neg h, get_append_of_ne _ _ _ (Ne.symm h)]

theorem keys_put (bs : Baskets) (k : Key) (b : Basket) (h : (bs.map (·.1)).Nodup) :
    ((bs.put k b).map (·.1)).Nodup := by
  unfold Baskets.put
  split
  · exact h.sublist (List.filter_sublist.map _)
  · split
    · have : (bs.map fun e => if e.1 = k then (k, b) else e).map (·.1) = bs.map (·.1) := by
        rw [List.map_map]
        apply List.map_congr_left
        intro e _
        simp only [Function.comp]
        split
        · rename_i he; exact he.symm
        · rfl
      rw [this]; exact h
    · rename_i hany
      rw [List.map_append, List.nodup_append]
      refine ⟨h, by simp, ?_⟩
      intro a ha c hc hac
      simp only [List.map_cons, List.map_nil, List.mem_singleton] at hc
      obtain ⟨e, he, rfl⟩ := List.mem_map.mp ha
      exact hany (List.any_eq_true.mpr ⟨e, he, by simp [hac, hc]⟩)

theorem get_map_filter (bs : Baskets) (f : Key → Basket → Basket) (hf : ∀ k, f k {} = {}) (h : (bs.map (·.1)).Nodup) (k : Key) :
    Baskets.get ((bs.map fun e => (e.1, f e.1 e.2)).filter fun e => e.2 ≠ {}) k = f k (bs.get k) := by
  induction bs with
  | nil => rw [get_nil, hf]; rfl
  | cons e bs ih =>
    rw [List.map_cons, List.nodup_cons] at h
    rw [List.map_cons, List.filter_cons, get_cons]
    by_cases he : e.1 = k
    · rw [if_pos he]
      have hrest : Baskets.get ((bs.map fun e => (e.1, f e.1 e.2)).filter fun e => e.2 ≠ {}) k = {} := by
        rw [ih h.2]
        have : Baskets.get bs k = {} := by
          have := get_append bs [] k (he ▸ h.1)
          rw [List.append_nil, get_nil] at this
          exact this
        rw [this, hf]
      split
      · rw [get_cons, if_pos he, he]
      · rename_i hx
        rw [hrest]
        have : f e.1 e.2 = {} := by simpa using hx
        rw [← he, this]
    · rw [if_neg he, ← ih h.2]
      split
      · rw [get_cons, if_neg he]
      · rfl

theorem mem_of_get {bs : Baskets} {k : Key} (h : bs.get k ≠ {}) : (k, bs.get k) ∈ bs := by
  induction bs with
  | nil => exact absurd rfl h
  | cons e bs ih =>
    rw [get_cons] at h ⊢
    by_cases he : e.1 = k
    · rw [if_pos he]
      have : (k, e.2) = e := by rw [← he]
      rw [this]; simp
    · rw [if_neg he] at h ⊢
      exact List.mem_cons_of_mem _ (ih h)

/-! ### Protocols -/

/-- The key a protocol was created for. -/
def origin (s : State) (p : Nat) : Option Key := (s.protos[p]?).map (·.origin)

theorem origin_modify (protos : List Proto) (p q : Nat) (f : Proto → Proto) (hf : ∀ x, (f x).origin = x.origin) :
    ((protos.modify p f)[q]?).map (·.origin) = (protos[q]?).map (·.origin) := by
  rw [List.getElem?_modify]
  split
  · cases protos[q]? <;> simp [hf]
  · cases protos[q]? <;> simp

theorem origin_shutAll (protos : List Proto) (ps : List Nat) (q : Nat) :
    ((shutAll protos ps)[q]?).map (·.origin) = (protos[q]?).map (·.origin) := by
  induction ps generalizing protos with
  | nil => rfl
  | cons p ps ih =>
    unfold shutAll at ih ⊢
    rw [List.foldl_cons, ih]
    exact origin_modify protos p q _ fun _ => rfl

/-! ### Popping -/

theorem lowest_perm {items rest : List Item} {x : Item} (h : lowest items = some (x, rest)) :
    items.Perm (x :: rest) := by
  induction items generalizing x rest with
  | nil => cases h
  | cons y ys ih =>
    rw [lowest] at h
    split at h
    · cases h; exact List.Perm.refl _
    · rename_i z zs hz
      split at h
      · cases h
        exact ((ih hz).cons y).trans (List.Perm.swap _ _ _)
      · cases h; exact List.Perm.refl _

theorem lowest_sublist {items rest : List Item} {x : Item} (h : lowest items = some (x, rest)) : rest.Sublist items := by
  induction items generalizing x rest with
  | nil => cases h
  | cons y ys ih =>
    rw [lowest] at h
    split at h
    · cases h; exact List.sublist_cons_self _ _
    · rename_i z zs hz
      split at h
      · cases h; exact (ih hz).cons_cons y
      · cases h; exact List.sublist_cons_self _ _

/-- The elements are the one that is given, the ones that are dropped, and the ones that stay. -/
theorem pop_perm (protos : List Proto) (now : Int) (items : List Item) :
    ∃ dropped, items.Perm ((pop protos now items).1.toList ++ dropped ++ (pop protos now items).2.1) := by
  fun_induction pop protos now items with
  | case1 items h =>
    have : items = [] := by
      cases items with
      | nil => rfl
      | cons y ys => rw [lowest] at h; split at h <;> (try split at h) <;> cases h
    exact ⟨[], by simp [this]⟩
  | case2 items hit rest h _ => exact ⟨[hit], by simpa using lowest_perm h⟩
  | case3 items hit rest h p hp ht ih =>
    obtain ⟨d, hd⟩ := ih
    refine ⟨hit :: d, (lowest_perm h).trans ((hd.cons hit).trans ?_)⟩
    simp only [List.append_assoc]
    exact List.perm_middle.symm
  | case4 items hit rest h p hp ht hx r ih =>
    obtain ⟨d, hd⟩ := ih
    refine ⟨hit :: d, (lowest_perm h).trans ((hd.cons hit).trans ?_)⟩
    simp only [List.append_assoc]
    exact List.perm_middle.symm
  | case5 items hit rest h p hp ht hx => exact ⟨[], by simpa using lowest_perm h⟩

theorem pop_sublist (protos : List Proto) (now : Int) (items : List Item) :
    (pop protos now items).2.1.Sublist items := by
  fun_induction pop protos now items with
  | case1 items h => exact List.nil_sublist _
  | case2 items hit rest h _ => exact lowest_sublist h
  | case3 items hit rest h p hp ht ih => exact ih.trans (lowest_sublist h)
  | case4 items hit rest h p hp ht hx r ih => exact ih.trans (lowest_sublist h)
  | case5 items hit rest h p hp ht hx => exact lowest_sublist h

theorem pop_some {protos : List Proto} {now : Int} {items : List Item} {x : Item}
    (h : (pop protos now items).1 = some x) :
    x ∈ items ∧ ((items.map (·.protocol)).Nodup → x.protocol ∉ (pop protos now items).2.1.map (·.protocol)) := by
  obtain ⟨d, hd⟩ := pop_perm protos now items
  rw [h] at hd
  refine ⟨hd.mem_iff.mpr (by simp), fun hn hm => ?_⟩
  have := (hd.map (·.protocol)).nodup_iff.mp hn
  simp only [Option.toList_some, List.cons_append, List.nil_append, List.map_cons, List.map_append, List.nodup_cons,
    List.mem_append, not_or] at this
  exact this.1.2 hm

/-! ### The invariant -/

/-- The protocols live connections have. -/
def held (s : State) : List Nat := s.conns.filterMap (·.protocol)

structure Inv (s : State) : Prop where
  keys : (s.baskets.map (·.1)).Nodup
  closed : s.closed = true → s.baskets = []
  avail : ∀ k, ∀ x ∈ (s.baskets.get k).available, origin s x.protocol = some k ∧ x.protocol ∉ held s
  nodup : ∀ k, ((s.baskets.get k).available.map (·.protocol)).Nodup
  used : ∀ k, ∀ p ∈ (s.baskets.get k).used, ∃ c ∈ s.conns, c.protocol = some p ∧ c.key = k
  conn : ∀ c ∈ s.conns, ∀ p, c.protocol = some p → origin s p = some c.key
  held : (held s).Nodup

theorem Inv.init (f : Bool) : Inv { forceClose := f } where
  keys := by simp
  closed := fun _ => rfl
  avail := by intro k x hx; cases hx
  nodup := by intro k; simp [get_nil]
  used := by intro k p hp; cases hp
  conn := by intro c hc; cases hc
  held := by simp [Pool.held]

/-- Changes of protocols that keep their origins. -/
theorem Inv.protos {s : State} (h : Inv s) (protos : List Proto)
    (ho : ∀ p, (protos[p]?).map (·.origin) = origin s p) : Inv { s with protos := protos } where
  keys := h.keys
  closed := h.closed
  avail := fun k x hx => ⟨(ho _).trans (h.avail k x hx).1, (h.avail k x hx).2⟩
  nodup := h.nodup
  used := h.used
  conn := fun c hc p hp => (ho _).trans (h.conn c hc p hp)
  held := h.held

theorem Inv.grow {s : State} (h : Inv s) (x : Proto) : Inv { s with protos := s.protos ++ [x] } := by
  have ho : ∀ p k, origin s p = some k → origin { s with protos := s.protos ++ [x] } p = some k := by
    intro p k hp
    unfold origin at hp ⊢
    obtain ⟨y, hy, rfl⟩ := Option.map_eq_some_iff.mp hp
    have : p < s.protos.length := by
      rcases Nat.lt_or_ge p s.protos.length with hlt | hge
      · exact hlt
      · rw [List.getElem?_eq_none hge] at hy; cases hy
    simp only
    rw [List.getElem?_append_left this, hy]
    rfl
  exact {
    keys := h.keys
    closed := h.closed
    avail := fun k y hy => ⟨ho _ _ (h.avail k y hy).1, (h.avail k y hy).2⟩
    nodup := h.nodup
    used := h.used
    conn := fun c hc p hp => ho _ _ (h.conn c hc p hp)
    held := h.held }

theorem Inv.put {s : State} (h : Inv s) (k : Key) (b : Basket) (hc : s.closed = true → b = {})
    (havail : ∀ x ∈ b.available, origin s x.protocol = some k ∧ x.protocol ∉ Pool.held s)
    (hnodup : (b.available.map (·.protocol)).Nodup)
    (hused : ∀ p ∈ b.used, ∃ c ∈ s.conns, c.protocol = some p ∧ c.key = k) :
    Inv { s with baskets := s.baskets.put k b } where
  keys := keys_put _ _ _ h.keys
  closed := by
    intro hcl
    have h1 := h.closed hcl
    have h2 := hc hcl
    show s.baskets.put k b = []
    rw [h1, h2]
    rfl
  avail := by
    intro k' x hx
    simp only [get_put] at hx
    split at hx
    · rename_i e; rw [e]; exact havail x hx
    · exact h.avail k' x hx
  nodup := by
    intro k'
    simp only [get_put]
    split
    · exact hnodup
    · exact h.nodup k'
  used := by
    intro k' p hp
    simp only [get_put] at hp
    split at hp
    · rename_i e; rw [e]; exact hused p hp
    · exact h.used k' p hp
  conn := h.conn
  held := h.held

/-- A new connection with a protocol that is neither available nor held. -/
theorem Inv.addConn {s : State} (h : Inv s) (k : Key) (p performed : Nat) (ho : origin s p = some k)
    (hh : p ∉ Pool.held s) (ha : ∀ k, p ∉ (s.baskets.get k).available.map (·.protocol)) :
    Inv { s with conns := s.conns ++ [⟨k, some p, performed⟩] } := by
  have hheld : Pool.held { s with conns := s.conns ++ [⟨k, some p, performed⟩] } = Pool.held s ++ [p] := by
    simp [Pool.held]
  exact {
    keys := h.keys
    closed := h.closed
    avail := by
      intro k' x hx
      refine ⟨(h.avail k' x hx).1, ?_⟩
      rw [hheld, List.mem_append, not_or]
      refine ⟨(h.avail k' x hx).2, ?_⟩
      intro hm
      rw [List.mem_singleton] at hm
      exact ha k' (List.mem_map.mpr ⟨x, hx, hm⟩)
    nodup := h.nodup
    used := by
      intro k' q hq
      obtain ⟨c, hc, h1⟩ := h.used k' q hq
      exact ⟨c, by simp [hc], h1⟩
    conn := by
      intro c hc q hq
      simp only [List.mem_append, List.mem_singleton] at hc
      rcases hc with hc | rfl
      · exact h.conn c hc q hq
      · cases hq; exact ho
    held := by
      rw [hheld, List.nodup_append]
      refine ⟨h.held, by simp, ?_⟩
      rintro a ha' b hb rfl
      rw [List.mem_singleton] at hb
      exact hh (hb ▸ ha') }

theorem filterMap_forget (conns : List Conn) : ∀ {c : Nat} {conn : Conn} {p : Nat}, conns[c]? = some conn →
    conn.protocol = some p → ∃ a b, conns.filterMap (·.protocol) = a ++ p :: b ∧
      (conns.modify c fun x => { x with protocol := none }).filterMap (·.protocol) = a ++ b := by
  induction conns with
  | nil => intro c conn p h; cases h
  | cons x conns ih =>
    intro c conn p h hp
    cases c with
    | zero =>
      simp only [List.getElem?_cons_zero, Option.some.injEq] at h
      subst h
      exact ⟨[], conns.filterMap (·.protocol), by simp [hp], by simp⟩
    | succ c =>
      simp only [List.getElem?_cons_succ] at h
      obtain ⟨a, b, h1, h2⟩ := ih h hp
      rw [List.modify_succ_cons]
      cases hx : x.protocol with
      | none =>
        refine ⟨a, b, ?_, ?_⟩
        · rw [List.filterMap_cons_none hx, h1]
        · rw [List.filterMap_cons_none hx, h2]
      | some q =>
        refine ⟨q :: a, b, ?_, ?_⟩
        · rw [List.filterMap_cons_some hx, h1]; rfl
        · rw [List.filterMap_cons_some hx, h2]; rfl

/-- A connection forgets its protocol, which is removed from those in use. -/
theorem Inv.forget {s : State} (h : Inv s) {c : Nat} {conn : Conn} {p : Nat} (hc : s.conns[c]? = some conn)
    (hp : conn.protocol = some p) :
    Inv (releaseUsed (Pool.forget s c) conn.key p) ∧ origin s p = some conn.key ∧ p ∉ Pool.held (Pool.forget s c) ∧
      ∀ k, p ∉ (s.baskets.get k).available.map (·.protocol) := by
  have hmem : conn ∈ s.conns := List.mem_of_getElem? hc
  have horigin := h.conn conn hmem p hp
  obtain ⟨a, b, h1, h2⟩ := filterMap_forget s.conns hc hp
  have hheld : Pool.held s = a ++ p :: b := h1
  have hheld' : Pool.held (Pool.forget s c) = a ++ b := h2
  have hn := h.held
  rw [hheld] at hn
  have hnp : p ∉ a ++ b := by
    have := (List.perm_middle (a := p) (l₁ := a) (l₂ := b)).nodup_iff.mp hn
    exact (List.nodup_cons.mp this).1
  have hsub : ∀ q, q ∈ a ++ b → q ∈ Pool.held s := by
    intro q hq
    rw [hheld]
    rcases List.mem_append.mp hq with h | h
    · exact List.mem_append_left _ h
    · exact List.mem_append_right _ (List.mem_cons_of_mem _ h)
  have hnotavail : ∀ k, p ∉ (s.baskets.get k).available.map (·.protocol) := by
    intro k hm
    obtain ⟨x, hx, e⟩ := List.mem_map.mp hm
    refine (h.avail k x hx).2 ?_
    rw [e, hheld]; simp
  -- other connections stay
  have hother : ∀ k q, q ≠ p → (∃ c' ∈ s.conns, c'.protocol = some q ∧ c'.key = k) →
      ∃ c' ∈ (Pool.forget s c).conns, c'.protocol = some q ∧ c'.key = k := by
    rintro k q hqp ⟨c', hc', h3, h4⟩
    obtain ⟨i, hi⟩ := List.mem_iff_getElem?.mp hc'
    have hic : i ≠ c := by
      rintro rfl
      rw [hc] at hi
      cases hi
      rw [hp] at h3
      exact hqp (Option.some.inj h3).symm
    refine ⟨c', ?_, h3, h4⟩
    apply List.mem_iff_getElem?.mpr
    refine ⟨i, ?_⟩
    show (s.conns.modify c _)[i]? = some c'
    rw [List.getElem?_modify, hi]
    simp [Ne.symm hic]
  refine ⟨?_, horigin, by rw [hheld']; exact hnp, hnotavail⟩
  have hconn : ∀ c' ∈ (Pool.forget s c).conns, ∀ q, c'.protocol = some q → origin s q = some c'.key := by
    intro c' hc' q hq
    obtain ⟨i, hi⟩ := List.mem_iff_getElem?.mp hc'
    have hi' : (s.conns.modify c fun x => { x with protocol := none })[i]? = some c' := hi
    rw [List.getElem?_modify] at hi'
    obtain ⟨y, hy, hfy⟩ := Option.map_eq_some_iff.mp hi'
    split at hfy
    · subst hfy; cases hq
    · subst hfy; exact h.conn _ (List.mem_of_getElem? hy) q hq
  unfold releaseUsed
  by_cases hcl : s.closed = true
  · have hb := h.closed hcl
    rw [if_pos (show (Pool.forget s c).closed = true from hcl)]
    exact {
      keys := h.keys
      closed := h.closed
      avail := by intro k x hx; rw [show (Pool.forget s c).baskets = [] from hb] at hx; cases hx
      nodup := h.nodup
      used := by intro k q hq; rw [show (Pool.forget s c).baskets = [] from hb] at hq; cases hq
      conn := hconn
      held := by
        rw [hheld']
        exact hn.sublist (List.Sublist.append_left (List.sublist_cons_self _ _) _) }
  · rw [if_neg (show ¬ (Pool.forget s c).closed = true from hcl)]
    exact {
      keys := keys_put _ _ _ h.keys
      closed := fun hx => absurd hx hcl
      avail := by
        intro k x hx
        have hx' : x ∈ (s.baskets.get k).available := by
          simp only [get_put] at hx
          split at hx
          · rename_i e; rw [e]; exact hx
          · exact hx
        refine ⟨(h.avail k x hx').1, ?_⟩
        intro hm
        have hm' : x.protocol ∈ a ++ b := by rw [← hheld']; exact hm
        exact (h.avail k x hx').2 (hsub _ hm')
      nodup := by
        intro k
        simp only [get_put]
        split
        · exact h.nodup conn.key
        · exact h.nodup k
      used := by
        intro k q hq
        simp only [get_put] at hq
        split at hq
        · rename_i e
          rw [List.mem_filter] at hq
          subst e
          exact hother _ q (by simpa using hq.2) (h.used _ q hq.1)
        · rename_i e
          have hqp : q ≠ p := by
            rintro rfl
            obtain ⟨c', hc', h3, h4⟩ := h.used k q hq
            have := h.conn c' hc' q h3
            rw [horigin, h4] at this
            exact e (Option.some.inj this).symm
          exact hother _ q hqp (h.used _ q hq)
      conn := hconn
      held := by
        show (Pool.held (Pool.forget s c)).Nodup
        rw [hheld']
        exact hn.sublist (List.Sublist.append_left (List.sublist_cons_self _ _) _) }

theorem Inv.connectorRelease {s : State} (h : Inv s) {c : Nat} {conn : Conn} {p : Nat} (hc : s.conns[c]? = some conn)
    (hp : conn.protocol = some p) (close : Bool) (timeout : Int) (performed : Nat) :
    Inv (Pool.connectorRelease (Pool.forget s c) conn.key p close timeout performed) := by
  obtain ⟨h1, h2, h3, h4⟩ := h.forget hc hp
  unfold Pool.connectorRelease
  split
  · rename_i hcl
    have : releaseUsed (Pool.forget s c) conn.key p = Pool.forget s c := by rw [releaseUsed, if_pos hcl]
    rwa [this] at h1
  · rename_i hcl
    simp only
    split
    · exact h1.protos _ fun q => origin_modify _ _ _ _ fun _ => rfl
    · have hproto : (releaseUsed (Pool.forget s c) conn.key p).protos = s.protos := by
        unfold releaseUsed; split <;> rfl
      have hconns : (releaseUsed (Pool.forget s c) conn.key p).conns = (Pool.forget s c).conns := by
        unfold releaseUsed; split <;> rfl
      have hclosed : (releaseUsed (Pool.forget s c) conn.key p).closed = s.closed := by
        unfold releaseUsed; split <;> rfl
      have hp' : p ∉ Pool.held (releaseUsed (Pool.forget s c) conn.key p) := by
        unfold Pool.held at h3 ⊢
        rw [hconns]; exact h3
      have ho' : origin (releaseUsed (Pool.forget s c) conn.key p) p = some conn.key := by
        unfold origin at h2 ⊢
        rw [hproto]; exact h2
      have hna : p ∉ ((releaseUsed (Pool.forget s c) conn.key p).baskets.get conn.key).available.map (·.protocol) := by
        unfold releaseUsed
        rw [if_neg hcl]
        simp only [get_put, if_pos]
        exact h4 conn.key
      refine h1.put _ _ ?_ ?_ ?_ ?_
      · intro hx; rw [hclosed] at hx; exact absurd hx hcl
      · intro x hx
        rcases List.mem_append.mp hx with hx | hx
        · exact h1.avail _ x hx
        · rw [List.mem_singleton] at hx
          subst hx
          exact ⟨ho', hp'⟩
      · rw [List.map_append, List.nodup_append]
        refine ⟨h1.nodup _, by simp, ?_⟩
        intro a ha b hb hab
        simp only [List.map_cons, List.map_nil, List.mem_singleton] at hb
        rw [hab, hb] at ha
        exact hna ha
      · exact h1.used _

theorem get_closed {s : State} (h : Inv s) (hc : s.closed = true) (k : Key) : s.baskets.get k = {} := by
  rw [h.closed hc]; rfl

theorem Inv.addUsed {s : State} (h : Inv s) (k : Key) (p : Nat) (performed : Nat) (hcl : s.closed = false)
    (ho : origin s p = some k) (hh : p ∉ Pool.held s) (ha : ∀ k, p ∉ (s.baskets.get k).available.map (·.protocol)) :
    Inv { Pool.addUsed s k p with conns := (Pool.addUsed s k p).conns ++ [⟨k, some p, performed⟩] } := by
  have h1 := h.addConn k p performed ho hh ha
  refine h1.put k _ (fun hx => ?_) (h1.avail k) (h1.nodup k) ?_
  · rw [show s.closed = true from hx] at hcl; cases hcl
  · intro q hq
    simp only at hq
    have hq' : q ∈ (s.baskets.get k).used ∨ q = p := by
      split at hq
      · exact Or.inl hq
      · rcases List.mem_append.mp hq with hq | hq
        · exact Or.inl hq
        · exact Or.inr (List.mem_singleton.mp hq)
    rcases hq' with hq' | rfl
    · exact h1.used k q hq'
    · exact ⟨⟨k, some q, performed⟩, by simp, rfl, rfl⟩

theorem Inv.step {s : State} (h : Inv s) (op : Op) : Inv (Pool.step s op) := by
  cases op with
  | connect k =>
    simp only [Pool.step]
    have hr := pop_sublist s.protos s.now (s.baskets.get k).available
    have h1 : Inv { s with
        protos := shutAll s.protos (pop s.protos s.now (s.baskets.get k).available).2.2
        baskets := s.baskets.put k { s.baskets.get k with
          available := (pop s.protos s.now (s.baskets.get k).available).2.1 } } := by
      have hput := h.put k { s.baskets.get k with available := (pop s.protos s.now (s.baskets.get k).available).2.1 }
        (fun hc => by
          have hg := get_closed h hc k
          rw [hg] at hr ⊢
          have : (pop s.protos s.now ({} : Basket).available).2.1 = [] := List.eq_nil_of_sublist_nil hr
          rw [this])
        (fun x hx => h.avail k x (hr.subset hx)) ((h.nodup k).sublist (hr.map _)) (h.used k)
      exact hput.protos _ fun q => origin_shutAll _ _ _
    split
    · rename_i hn
      exact ⟨h1.keys, h1.closed, h1.avail, h1.nodup, h1.used, h1.conn, h1.held⟩
    · rename_i item hitem
      obtain ⟨hm, hnot⟩ := pop_some hitem
      have hx := h.avail k item hm
      have hcl : s.closed = false := by
        cases hc : s.closed with
        | false => rfl
        | true => rw [get_closed h hc k] at hm; cases hm
      refine h1.addUsed k item.protocol item.performed hcl ?_ hx.2 ?_
      · exact (origin_shutAll _ _ _).trans hx.1
      · intro k' hm'
        simp only [get_put] at hm'
        split at hm'
        · exact hnot (h.nodup k) hm'
        · rename_i hk
          obtain ⟨y, hy, e⟩ := List.mem_map.mp hm'
          have := (h.avail k' y hy).1
          rw [e, hx.1] at this
          exact hk (Option.some.inj this).symm
  | created i =>
    simp only [Pool.step]
    split
    · exact h
    · rename_i k hk
      have hp : Inv { s with pending := s.pending.eraseIdx i } :=
        ⟨h.keys, h.closed, h.avail, h.nodup, h.used, h.conn, h.held⟩
      split
      · exact hp.grow _
      · rename_i hcl
        have hcl' : s.closed = false := by simpa using hcl
        have hnone : origin s s.protos.length = none := by
          unfold origin
          rw [List.getElem?_eq_none (Nat.le_refl _)]
          rfl
        refine (hp.grow { origin := k }).addUsed k s.protos.length 0 hcl' ?_ ?_ ?_
        · unfold origin
          simp
        · intro hm
          obtain ⟨c, hc, hcp⟩ := List.mem_filterMap.mp hm
          have := h.conn c hc _ hcp
          rw [hnone] at this
          cases this
        · intro k' hm
          obtain ⟨y, hy, e⟩ := List.mem_map.mp hm
          have := (h.avail k' y hy).1
          rw [e, hnone] at this
          cases this
  | createFailed i => exact ⟨h.keys, h.closed, h.avail, h.nodup, h.used, h.conn, h.held⟩
  | release c info =>
    simp only [Pool.step]
    split
    · exact h
    · rename_i conn hc
      split
      · exact h
      · rename_i p hp
        split
        · exact h.connectorRelease hc hp _ _ _
        · exact h.connectorRelease hc hp _ _ _
  | close c =>
    simp only [Pool.step]
    split
    · exact h
    · rename_i conn hc
      split
      · exact h
      · rename_i p hp
        exact h.connectorRelease hc hp _ _ _
  | detach c =>
    simp only [Pool.step]
    split
    · exact h
    · rename_i conn hc
      split
      · exact h
      · rename_i p hp
        exact (h.forget hc hp).1
  | cleanUp =>
    simp only [Pool.step]
    have hget : ∀ k, Baskets.get ((s.baskets.map fun e => (e.1, clean s.now e.2)).filter fun e => e.2 ≠ {}) k
        = clean s.now (s.baskets.get k) := fun k =>
      get_map_filter s.baskets (fun _ b => clean s.now b) (fun _ => rfl) h.keys k
    have h1 : Inv { s with baskets := (s.baskets.map fun e => (e.1, clean s.now e.2)).filter fun e => e.2 ≠ {} } := {
      keys := by
        have hk : ((s.baskets.map fun e => (e.1, clean s.now e.2)).map (·.1)) = s.baskets.map (·.1) := by
          rw [List.map_map]; rfl
        have := h.keys
        rw [← hk] at this
        exact this.sublist (List.filter_sublist.map _)
      closed := by
        intro hc
        simp only [h.closed hc]
        rfl
      avail := by
        intro k x hx
        simp only [hget] at hx
        exact h.avail k x (List.mem_filter.mp hx).1
      nodup := by
        intro k
        simp only [hget]
        exact (h.nodup k).sublist (List.filter_sublist.map _)
      used := by
        intro k p hp
        simp only [hget] at hp
        exact h.used k p hp
      conn := h.conn
      held := h.held }
    exact h1.protos _ fun q => origin_shutAll _ _ _
  | closeConnector =>
    simp only [Pool.step]
    split
    · exact h
    · have h1 : Inv { s with closed := true, baskets := [] } := {
        keys := by simp
        closed := fun _ => rfl
        avail := by intro k x hx; cases hx
        nodup := by intro k; simp [get_nil]
        used := by intro k p hp; cases hp
        conn := h.conn
        held := h.held }
      exact h1.protos _ fun q => origin_shutAll _ _ _
  | change p x =>
    simp only [Pool.step]
    refine h.protos _ fun q => origin_modify _ _ _ _ fun y => ?_
    cases x <;> rfl
  | tick n => exact ⟨h.keys, h.closed, h.avail, h.nodup, h.used, h.conn, h.held⟩

theorem Inv.runAll {s : State} (h : Inv s) (ops : List Op) : Inv (Pool.runAll s ops) := by
  induction ops generalizing s with
  | nil => exact h
  | cons op ops ih => exact ih (h.step op)

/-! ## C51: a protocol is used by one connection at a time, and for its own host -/

/-- **C51.** After any history: no two connections have the same protocol; the protocol of a connection was
created for the key of the connection. -/
theorem C51_exclusive (forceClose : Bool) (ops : List Op) (i j p : Nat) (a b : Conn)
    (ha : (runAll { forceClose } ops).conns[i]? = some a) (hb : (runAll { forceClose } ops).conns[j]? = some b)
    (hap : a.protocol = some p) (hbp : b.protocol = some p) :
    i = j ∧ ∃ x, (runAll { forceClose } ops).protos[p]? = some x ∧ x.origin = a.key := by
  have h := (Inv.init forceClose).runAll ops
  constructor
  · have key : ∀ (conns : List Conn) (i j : Nat), conns[i]? = some a → conns[j]? = some b →
        (conns.filterMap (·.protocol)).Nodup → i = j := by
      intro conns
      induction conns with
      | nil => intro i j h; cases h
      | cons c conns ih =>
        intro i j hi hj hn
        have hin : ∀ {k : Nat} {x : Conn}, conns[k]? = some x → x.protocol = some p → p ∈ conns.filterMap (·.protocol) :=
          fun hk hx => List.mem_filterMap.mpr ⟨_, List.mem_of_getElem? hk, hx⟩
        cases i with
        | zero =>
          cases j with
          | zero => rfl
          | succ j =>
            simp only [List.getElem?_cons_zero, Option.some.injEq, List.getElem?_cons_succ] at hi hj
            subst hi
            rw [List.filterMap_cons_some hap, List.nodup_cons] at hn
            exact absurd (hin hj hbp) hn.1
        | succ i =>
          cases j with
          | zero =>
            simp only [List.getElem?_cons_zero, Option.some.injEq, List.getElem?_cons_succ] at hi hj
            subst hj
            rw [List.filterMap_cons_some hbp, List.nodup_cons] at hn
            exact absurd (hin hi hap) hn.1
          | succ j =>
            simp only [List.getElem?_cons_succ] at hi hj
            have hn' : (conns.filterMap (·.protocol)).Nodup :=
              hn.sublist ((List.sublist_cons_self _ _).filterMap _)
            rw [ih i j hi hj hn']
    exact key _ i j ha hb h.held
  · have := h.conn a (List.mem_of_getElem? ha) p hap
    obtain ⟨x, hx, hxo⟩ := Option.map_eq_some_iff.mp this
    exact ⟨x, hx, hxo⟩

/-- **C51.** After any history: a protocol that is available in the basket of a key was created for that key,
is there once, is in no other basket, is not used, and no connection has it. -/
theorem C51_available (forceClose : Bool) (ops : List Op) (k : Key) :
    let s := runAll { forceClose } ops
    ((s.baskets.get k).available.map (·.protocol)).Nodup ∧
    ∀ x ∈ (s.baskets.get k).available, (∃ y, s.protos[x.protocol]? = some y ∧ y.origin = k) ∧
      (∀ c ∈ s.conns, c.protocol ≠ some x.protocol) ∧
      ∀ k', x.protocol ∉ (s.baskets.get k').used ∧
        (k' ≠ k → x.protocol ∉ (s.baskets.get k').available.map (·.protocol)) := by
  have h := (Inv.init forceClose).runAll ops
  refine ⟨h.nodup k, ?_⟩
  intro x hx
  have hxa := h.avail k x hx
  have hnotheld : ∀ c ∈ (runAll { forceClose } ops).conns, c.protocol ≠ some x.protocol := by
    intro c hc e
    exact hxa.2 (List.mem_filterMap.mpr ⟨c, hc, e⟩)
  refine ⟨Option.map_eq_some_iff.mp hxa.1, hnotheld, ?_⟩
  intro k'
  constructor
  · intro hu
    obtain ⟨c, hc, e, _⟩ := h.used k' _ hu
    exact hnotheld c hc e
  · intro hk hm
    obtain ⟨y, hy, e⟩ := List.mem_map.mp hm
    have := (h.avail k' y hy).1
    rw [e, hxa.1] at this
    exact hk (Option.some.inj this).symm

/-- A protocol goes from one connection to the next; another key gets another one. -/
example : (runAll {} [.connect ⟨0, true⟩, .created 0, .release 0 (some ⟨15, 0⟩), .connect ⟨1, true⟩, .created 0,
      .connect ⟨0, true⟩]).conns = [⟨⟨0, true⟩, none, 0⟩, ⟨⟨1, true⟩, some 1, 0⟩, ⟨⟨0, true⟩, some 0, 1⟩] := by
  simp [runAll, step, pop, lowest, Baskets.get, Baskets.put, addUsed, forget, connectorRelease, connectionCloses,
    shouldClose, releaseUsed, Proto.shouldClose, shutAll]

end Verif.Pool
