import Verif.Pool.Props

/-!
# Properties of the connection pool: what is handed out, and what is closed

C52, C53, C93.
-/

namespace Verif.Pool

/-! ## C52: what `pop_available_protocol` gives -/

/-- The protocol of the element can be used: it has a transport, it did not expire, and it need not be
closed. -/
def Usable (protos : List Proto) (now : Int) (x : Item) : Prop :=
  ∃ p, protos[x.protocol]? = some p ∧ p.transport = true ∧ now ≤ x.expiration ∧ p.shouldClose = false

theorem lowest_none {items : List Item} (h : lowest items = none) : items = [] := by
  cases items with
  | nil => rfl
  | cons y ys => rw [lowest] at h; split at h <;> (try split at h) <;> cases h

theorem lowest_le {items rest : List Item} {x : Item} (h : lowest items = some (x, rest)) :
    ∀ y ∈ items, x.expiration ≤ y.expiration := by
  induction items generalizing x rest with
  | nil => cases h
  | cons z zs ih =>
    rw [lowest] at h
    intro y hy
    split at h
    · rename_i hn
      cases h
      rw [lowest_none hn] at hy
      rw [List.mem_singleton] at hy
      rw [hy]; exact Int.le_refl _
    · rename_i w ws hw
      split at h
      · rename_i hlt
        cases h
        rcases List.mem_cons.mp hy with rfl | hy
        · omega
        · exact ih hw y hy
      · rename_i hlt
        cases h
        rcases List.mem_cons.mp hy with rfl | hy
        · exact Int.le_refl _
        · have := ih hw y hy
          omega

/-- Of several with the lowest expiration the first one is taken: those in front of it expire later. -/
theorem lowest_first {items rest : List Item} {x : Item} (h : lowest items = some (x, rest)) :
    ∃ a b, items = a ++ x :: b ∧ rest = a ++ b ∧ ∀ y ∈ a, x.expiration < y.expiration := by
  induction items generalizing x rest with
  | nil => cases h
  | cons z zs ih =>
    rw [lowest] at h
    split at h
    · cases h; exact ⟨[], zs, rfl, rfl, by simp⟩
    · rename_i w ws hw
      split at h
      · rename_i hlt
        cases h
        obtain ⟨a, b, h1, h2, h3⟩ := ih hw
        refine ⟨z :: a, b, by rw [h1]; rfl, by rw [h2]; rfl, ?_⟩
        intro y hy
        rcases List.mem_cons.mp hy with rfl | hy
        · exact hlt
        · exact h3 y hy
      · cases h; exact ⟨[], zs, rfl, rfl, by simp⟩

/-- **C52.** Nothing is given only if nothing can be used; then nothing stays available.  What is given can be
used, expires no later than anything else that can be used or that stays, and was available. -/
theorem C52_given (protos : List Proto) (now : Int) (items : List Item)
    (hv : ∀ x ∈ items, x.protocol < protos.length) :
    match pop protos now items with
    | (none, rest, _) => rest = [] ∧ ∀ x ∈ items, ¬ Usable protos now x
    | (some x, rest, _) => x ∈ items ∧ Usable protos now x ∧
        (∀ y ∈ items, Usable protos now y → x.expiration ≤ y.expiration) ∧
        ∀ y ∈ rest, x.expiration ≤ y.expiration := by
  fun_induction pop protos now items with
  | case1 items h =>
    refine ⟨rfl, ?_⟩
    rw [lowest_none h]
    intro x hx; cases hx
  | case2 items hit rest h hn =>
    have := hv hit ((lowest_perm h).mem_iff.mpr (by simp))
    rw [List.getElem?_eq_getElem this] at hn
    cases hn
  | case3 items hit rest h p hp ht ih =>
    have hperm := lowest_perm h
    have hbad : ¬ Usable protos now hit := by
      rintro ⟨q, hq, h1, _⟩
      rw [hp] at hq
      cases hq
      simp [h1] at ht
    have ih := ih fun x hx => hv x (hperm.mem_iff.mpr (by simp [hx]))
    generalize pop protos now rest = r at ih
    obtain ⟨g, rest', cl⟩ := r
    cases g with
    | none =>
      refine ⟨ih.1, fun x hx => ?_⟩
      rcases List.mem_cons.mp (hperm.mem_iff.mp hx) with rfl | hx
      · exact hbad
      · exact ih.2 x hx
    | some g =>
      obtain ⟨h1, h2, h3, h4⟩ := ih
      refine ⟨hperm.mem_iff.mpr (by simp [h1]), h2, fun y hy hu => ?_, h4⟩
      rcases List.mem_cons.mp (hperm.mem_iff.mp hy) with rfl | hy
      · exact absurd hu hbad
      · exact h3 y hy hu
  | case4 items hit rest h p hp ht hx r ih =>
    have hperm := lowest_perm h
    have hbad : ¬ Usable protos now hit := by
      rintro ⟨q, hq, h1, h2, h3⟩
      rw [hp] at hq
      cases hq
      rw [h3] at hx
      simp at hx
      omega
    have ih := ih fun x hx => hv x (hperm.mem_iff.mpr (by simp [hx]))
    change match pop protos now rest with
      | (none, rest, _) => _
      | (some x, rest, _) => _ at ih
    have hr : r = pop protos now rest := rfl
    rw [hr]
    generalize pop protos now rest = r' at ih
    obtain ⟨g, rest', cl⟩ := r'
    cases g with
    | none =>
      refine ⟨ih.1, fun x hx => ?_⟩
      rcases List.mem_cons.mp (hperm.mem_iff.mp hx) with rfl | hx
      · exact hbad
      · exact ih.2 x hx
    | some g =>
      obtain ⟨h1, h2, h3, h4⟩ := ih
      refine ⟨hperm.mem_iff.mpr (by simp [h1]), h2, fun y hy hu => ?_, h4⟩
      rcases List.mem_cons.mp (hperm.mem_iff.mp hy) with rfl | hy
      · exact absurd hu hbad
      · exact h3 y hy hu
  | case5 items hit rest h p hp ht hx =>
    have hperm := lowest_perm h
    have hle := lowest_le h
    refine ⟨hperm.mem_iff.mpr (by simp), ⟨p, hp, by simpa using ht, ?_, ?_⟩, fun y hy _ => hle y hy,
      fun y hy => hle y (hperm.mem_iff.mpr (by simp [hy]))⟩
    · simp at hx; omega
    · simp at hx; exact hx.2

/-- **C52.** What is skipped, and nothing else, is dropped: the elements are what is given, what is dropped, and
what stays, which keeps its order.  What is dropped cannot be used; it is closed unless it has no transport. -/
theorem C52_dropped (protos : List Proto) (now : Int) (items : List Item)
    (hv : ∀ x ∈ items, x.protocol < protos.length) :
    ∃ dropped,
      items.Perm ((pop protos now items).1.toList ++ dropped ++ (pop protos now items).2.1) ∧
      (pop protos now items).2.1.Sublist items ∧
      (∀ x ∈ dropped, ¬ Usable protos now x) ∧
      (pop protos now items).2.2 =
        (dropped.map (·.protocol)).filter fun p => (protos[p]?.map (·.transport)).getD false := by
  suffices h : ∃ dropped,
      items.Perm ((pop protos now items).1.toList ++ dropped ++ (pop protos now items).2.1) ∧
      (∀ x ∈ dropped, ¬ Usable protos now x) ∧
      (pop protos now items).2.2 =
        (dropped.map (·.protocol)).filter fun p => (protos[p]?.map (·.transport)).getD false by
    obtain ⟨d, h1, h2, h3⟩ := h
    exact ⟨d, h1, pop_sublist protos now items, h2, h3⟩
  fun_induction pop protos now items with
  | case1 items h => exact ⟨[], by simp [lowest_none h], by simp, rfl⟩
  | case2 items hit rest h hn =>
    have := hv hit ((lowest_perm h).mem_iff.mpr (by simp))
    rw [List.getElem?_eq_getElem this] at hn
    cases hn
  | case3 items hit rest h p hp ht ih =>
    have hperm := lowest_perm h
    obtain ⟨d, h1, h2, h3⟩ := ih fun x hx => hv x (hperm.mem_iff.mpr (by simp [hx]))
    refine ⟨hit :: d, hperm.trans ((h1.cons hit).trans ?_), ?_, ?_⟩
    · simp only [List.append_assoc]
      exact List.perm_middle.symm
    · intro x hx
      rcases List.mem_cons.mp hx with rfl | hx
      · rintro ⟨q, hq, h4, _⟩
        rw [hp] at hq
        cases hq
        simp [h4] at ht
      · exact h2 x hx
    · rw [h3, List.map_cons, List.filter_cons, if_neg]
      rw [hp]
      simpa using ht
  | case4 items hit rest h p hp ht hx r ih =>
    have hperm := lowest_perm h
    obtain ⟨d, h1, h2, h3⟩ := ih fun x hx => hv x (hperm.mem_iff.mpr (by simp [hx]))
    refine ⟨hit :: d, hperm.trans ((h1.cons hit).trans ?_), ?_, ?_⟩
    · simp only [List.append_assoc]
      exact List.perm_middle.symm
    · intro x hx'
      rcases List.mem_cons.mp hx' with rfl | hx'
      · rintro ⟨q, hq, h4, h5, h6⟩
        rw [hp] at hq
        cases hq
        rw [h6] at hx
        simp at hx
        omega
      · exact h2 x hx'
    · show hit.protocol :: r.2.2 = _
      rw [h3, List.map_cons, List.filter_cons, if_pos]
      rw [hp]
      simpa using ht
  | case5 items hit rest h p hp ht hx => exact ⟨[], by simpa using lowest_perm h, by simp, rfl⟩

/-- **C52.** The elements of a basket have protocols, in all histories: the two theorems above are about all
contents a pool can have. -/
theorem C52_contents (forceClose : Bool) (ops : List Op) (k : Key) :
    ∀ x ∈ ((runAll { forceClose } ops).baskets.get k).available, x.protocol < (runAll { forceClose } ops).protos.length := by
  intro x hx
  have h := (((Inv.init forceClose).runAll ops).avail k x hx).1
  obtain ⟨y, hy, _⟩ := Option.map_eq_some_iff.mp h
  rcases Nat.lt_or_ge x.protocol (runAll { forceClose } ops).protos.length with hlt | hge
  · exact hlt
  · rw [List.getElem?_eq_none hge] at hy; cases hy

theorem getElem?_shutAll (protos : List Proto) (ps : List Nat) (q : Nat) :
    (shutAll protos ps)[q]? = (protos[q]?).map fun x => if q ∈ ps then { x with shut := true } else x := by
  induction ps generalizing protos with
  | nil => cases h : protos[q]? <;> simp [shutAll, h]
  | cons p ps ih =>
    have : shutAll protos (p :: ps) = shutAll (shutOne protos p) ps := rfl
    rw [this, ih]
    unfold shutOne
    rw [List.getElem?_modify]
    cases protos[q]? with
    | none => rfl
    | some x =>
      by_cases hpq : p = q
      · subst hpq
        simp
      · by_cases hq : q ∈ ps
        · simp [hpq, hq]
        · simp [hpq, hq, Ne.symm hpq]

/-- **C52.** In all histories: when `connect` makes a connection at once, its protocol can be used. -/
theorem C52_connect (forceClose : Bool) (ops : List Op) (k : Key) (c : Conn) (p : Nat)
    (hc : (step (runAll { forceClose } ops) (.connect k)).conns = (runAll { forceClose } ops).conns ++ [c])
    (hp : c.protocol = some p) :
    ∃ x, (runAll { forceClose } ops).protos[p]? = some x ∧ x.transport = true ∧ x.shouldClose = false ∧ x.origin = k ∧
      c.key = k := by
  have hinv := (Inv.init forceClose).runAll ops
  have hgiven := C52_given (runAll { forceClose } ops).protos (runAll { forceClose } ops).now
    ((runAll { forceClose } ops).baskets.get k).available (C52_contents forceClose ops k)
  generalize runAll { forceClose } ops = s at hc hinv hgiven
  simp only [step] at hc
  generalize pop s.protos s.now (s.baskets.get k).available = r at hc hgiven
  obtain ⟨g, rest, cl⟩ := r
  cases g with
  | none =>
    simp only at hc
    have := congrArg List.length hc
    simp at this
  | some x =>
    simp only [addUsed] at hc
    have hcc := (List.append_cancel_left hc)
    simp only [List.cons.injEq, and_true] at hcc
    subst hcc
    simp only [Option.some.injEq] at hp
    obtain ⟨h1, ⟨q, hq, h2, _, h3⟩, _⟩ := hgiven
    have ho := (hinv.avail k x h1).1
    unfold origin at ho
    rw [hq] at ho
    rw [← hp]
    exact ⟨q, hq, h2, h3, by simpa using ho, rfl⟩

/-- Of four elements: one is expired, one has no transport, and of the others the one that expires first is given. -/
example : pop [{ origin := ⟨0, false⟩ }, { origin := ⟨0, false⟩, transport := false }, { origin := ⟨0, false⟩ },
      { origin := ⟨0, false⟩ }] 10 [⟨3, 20, 0⟩, ⟨1, 12, 0⟩, ⟨0, 9, 5⟩, ⟨2, 15, 2⟩]
    = (some ⟨2, 15, 2⟩, [⟨3, 20, 0⟩], [0]) := by
  simp [pop, lowest, Proto.shouldClose]

/-! ## C93: a protocol that is handed out is as good as new -/

/-- **C93.** A protocol that is handed out for another request is not streaming a payload, did not fail, and, if it did not
receive the end of the stream, has no unread data.  Missing: that it did not receive the end of the stream. -/
theorem C93_handed_out_partial (forceClose : Bool) (ops : List Op) (k : Key) (c : Conn) (p : Nat)
    (hc : (step (runAll { forceClose } ops) (.connect k)).conns = (runAll { forceClose } ops).conns ++ [c])
    (hp : c.protocol = some p) :
    ∃ x, (runAll { forceClose } ops).protos[p]? = some x ∧ x.streaming = false ∧ x.failed = false ∧
      (x.atEof = false → x.buffered = false) := by
  obtain ⟨x, hx, _, hs, _⟩ := C52_connect forceClose ops k c p hc hp
  refine ⟨x, hx, ?_⟩
  unfold Proto.shouldClose at hs
  simp at hs
  exact ⟨hs.1.1, hs.1.2, hs.2⟩

/-- **C93, violated.** When the server has sent something nobody asked for and then the end of the stream, the protocol is
handed out for the next request all the same, as long as the transport did not tell that the connection is lost. -/
theorem C93_handed_out_violated :
    let s := runAll {} [.connect ⟨0, true⟩, .created 0, .release 0 (some ⟨15, 0⟩), .change 0 .data, .change 0 .eof,
      .connect ⟨0, true⟩]
    s.conns[1]? = some ⟨⟨0, true⟩, some 0, 1⟩ ∧ ∃ x, s.protos[0]? = some x ∧ x.atEof = true ∧ x.buffered = true := by
  refine ⟨?_, { origin := ⟨0, true⟩, atEof := true, buffered := true }, ?_, rfl, rfl⟩ <;>
    simp [runAll, step, pop, lowest, Baskets.get, Baskets.put, addUsed, forget, connectorRelease, connectionCloses,
      shouldClose, releaseUsed, Proto.shouldClose, shutAll, Change.apply]

/-! ## C53: what leaves the pool is closed -/

/-- Nobody can close the protocol any more: it has a transport and was not closed, but neither a connection nor the pool
has it. -/
def Leaked (s : State) (p : Nat) : Prop :=
  (∃ x, s.protos[p]? = some x ∧ x.transport = true ∧ x.shut = false) ∧ p ∉ held s ∧
    ∀ k, p ∉ (s.baskets.get k).available.map (·.protocol)

/-- What connections have is in use, or is closed if the connector is closed. -/
structure Inv2 (s : State) : Prop where
  inv : Inv s
  held_used : s.closed = false → ∀ c ∈ s.conns, ∀ p, c.protocol = some p → p ∈ (s.baskets.get c.key).used
  held_shut : s.closed = true → ∀ p ∈ held s, ∀ x, s.protos[p]? = some x → x.shut = true

theorem Inv2.init (f : Bool) : Inv2 { forceClose := f } where
  inv := Inv.init f
  held_used := by intro _ c hc; cases hc
  held_shut := by intro h; cases h

theorem used_put_avail (bs : Baskets) (k k' : Key) (items : List Item) :
    ((bs.put k { bs.get k with available := items }).get k').used = (bs.get k').used := by
  rw [get_put]
  split
  · rename_i e; rw [e]
  · rfl

theorem conns_forget {s : State} {c : Nat} {conn : Conn} (h : conn ∈ (forget s c).conns) {p : Nat}
    (hp : conn.protocol = some p) : conn ∈ s.conns := by
  obtain ⟨i, hi⟩ := List.mem_iff_getElem?.mp h
  have hi' : (s.conns.modify c fun x => { x with protocol := none })[i]? = some conn := hi
  rw [List.getElem?_modify] at hi'
  obtain ⟨y, hy, hfy⟩ := Option.map_eq_some_iff.mp hi'
  split at hfy
  · subst hfy; cases hp
  · subst hfy; exact List.mem_of_getElem? hy

theorem held_forget {s : State} {c p : Nat} (h : p ∈ held (forget s c)) : p ∈ held s := by
  obtain ⟨conn, hc, hp⟩ := List.mem_filterMap.mp h
  exact List.mem_filterMap.mpr ⟨conn, conns_forget hc hp, hp⟩

theorem shut_modify {protos : List Proto} {f : Proto → Proto} (hf : ∀ x, x.shut = true → (f x).shut = true) {i q : Nat}
    (h : ∀ x, protos[q]? = some x → x.shut = true) : ∀ x, (protos.modify i f)[q]? = some x → x.shut = true := by
  intro x hx
  rw [List.getElem?_modify] at hx
  obtain ⟨y, hy, e⟩ := Option.map_eq_some_iff.mp hx
  split at e
  · rw [← e]; exact hf y (h y hy)
  · rw [← e]; exact h y hy

/-- The protocols in use after a connection forgot its protocol. -/
theorem Inv2.forget_used {s : State} (h : Inv2 s) {c : Nat} {conn : Conn} {p : Nat} (hc : s.conns[c]? = some conn)
    (hp : conn.protocol = some p) (hcl : s.closed = false) :
    ∀ d ∈ (forget s c).conns, ∀ q, d.protocol = some q → q ∈ ((releaseUsed (forget s c) conn.key p).baskets.get d.key).used := by
  intro d hd q hq
  have hmem := conns_forget hd hq
  have hu := h.held_used hcl d hmem q hq
  have hne : q ≠ p := by
    rintro rfl
    exact (h.inv.forget hc hp).2.2.1 (List.mem_filterMap.mpr ⟨d, hd, hq⟩)
  unfold releaseUsed
  rw [if_neg (by simp [forget, hcl])]
  simp only [get_put]
  split
  · rename_i e
    rw [List.mem_filter]
    exact ⟨by rw [← e]; exact hu, by simpa using hne⟩
  · exact hu

theorem Inv2.connectorRelease {s : State} (h : Inv2 s) {c : Nat} {conn : Conn} {p : Nat} (hc : s.conns[c]? = some conn)
    (hp : conn.protocol = some p) (close : Bool) (timeout : Int) (performed : Nat) :
    Inv2 (Pool.connectorRelease (forget s c) conn.key p close timeout performed) := by
  have h1 := h.inv.connectorRelease hc hp close timeout performed
  cases hcl : s.closed with
  | true =>
    have e : Pool.connectorRelease (forget s c) conn.key p close timeout performed = forget s c := by
      unfold Pool.connectorRelease
      rw [if_pos (by exact hcl)]
    rw [e] at h1 ⊢
    exact ⟨h1, (fun hx => by rw [show s.closed = false from hx] at hcl; cases hcl),
      fun _ q hq x hx => h.held_shut hcl q (held_forget hq) x hx⟩
  | false =>
    have hu := h.forget_used hc hp hcl
    have hclosed : ∀ t, releaseUsed (forget s c) conn.key p = t → t.closed = false := by
      rintro t rfl
      unfold releaseUsed
      split <;> exact hcl
    refine ⟨h1, ?_, ?_⟩
    · intro _ d hd q hq
      unfold Pool.connectorRelease at hd ⊢
      rw [if_neg (by simp [forget, hcl])] at hd ⊢
      have hconns : (releaseUsed (forget s c) conn.key p).conns = (forget s c).conns := by
        unfold releaseUsed; split <;> rfl
      simp only at hd ⊢
      split at hd
      · rename_i hx
        rw [if_pos hx]
        exact hu d (by rw [← hconns]; exact hd) q hq
      · rename_i hx
        rw [if_neg hx]
        show q ∈ (((releaseUsed (forget s c) conn.key p).baskets.put _ _).get _).used
        rw [used_put_avail]
        exact hu d (by rw [← hconns]; exact hd) q hq
    · intro hx
      exfalso
      unfold Pool.connectorRelease at hx
      rw [if_neg (by simp [forget, hcl])] at hx
      have := hclosed _ rfl
      simp only at hx
      split at hx
      · rw [show (releaseUsed (forget s c) conn.key p).closed = true from hx] at this; cases this
      · rw [show (releaseUsed (forget s c) conn.key p).closed = true from hx] at this; cases this

theorem mem_addUsed (s : State) (k : Key) (p : Nat) : p ∈ ((addUsed s k p).baskets.get k).used := by
  unfold addUsed
  simp only [get_put, if_pos]
  split
  · assumption
  · simp

theorem addUsed_mono (s : State) (k k' : Key) (p q : Nat) (h : q ∈ (s.baskets.get k').used) :
    q ∈ ((addUsed s k p).baskets.get k').used := by
  unfold addUsed
  simp only [get_put]
  split
  · rename_i e
    subst e
    simp only
    split
    · exact h
    · exact List.mem_append_left _ h
  · exact h

theorem Inv2.step {s : State} (h : Inv2 s) (op : Op) : Inv2 (Pool.step s op) := by
  have hinv := h.inv.step op
  cases op with
  | connect k =>
    refine ⟨hinv, ?_, ?_⟩
    · intro hcl c hc p hp
      simp only [Pool.step] at hcl hc ⊢
      split at hc
      · rename_i hn
        simp only
        rw [used_put_avail]
        refine h.held_used ?_ c hc p hp
        simpa [hn] using hcl
      · rename_i item hitem
        simp only [hitem] at hcl ⊢
        have hc' : c ∈ s.conns ++ [⟨k, some item.protocol, item.performed⟩] := hc
        rcases List.mem_append.mp hc' with hc' | hc'
        · apply addUsed_mono
          simp only
          rw [used_put_avail]
          exact h.held_used hcl c hc' p hp
        · rw [List.mem_singleton] at hc'
          subst hc'
          simp only [Option.some.injEq] at hp
          subst hp
          exact mem_addUsed _ _ _
    · intro hcl p hp x hx
      simp only [Pool.step] at hcl hp hx
      split at hp
      · rename_i hn
        simp only [hn] at hcl hx
        rw [getElem?_shutAll] at hx
        obtain ⟨y, hy, e⟩ := Option.map_eq_some_iff.mp hx
        have := h.held_shut hcl p hp y hy
        rw [← e]
        split
        · rfl
        · exact this
      · rename_i item hitem
        simp only [hitem] at hcl
        have hg := get_closed h.inv hcl k
        rw [hg] at hitem
        have : pop s.protos s.now ({} : Basket).available = (none, [], []) := by
          simp [pop, lowest]
        rw [this] at hitem
        cases hitem
  | created i =>
    refine ⟨hinv, ?_, ?_⟩
    · intro hcl c hc p hp
      simp only [Pool.step] at hcl hc ⊢
      split at hc
      · rename_i hn
        simp only [hn] at hcl ⊢
        exact h.held_used hcl c hc p hp
      · rename_i k hk
        simp only [hk] at hcl ⊢
        split at hc
        · rename_i hx
          rw [if_pos hx] at hcl
          rw [show s.closed = false from hcl] at hx
          cases hx
        · rename_i hx
          rw [if_neg hx] at hcl ⊢
          have hc' : c ∈ s.conns ++ [⟨k, some s.protos.length, 0⟩] := hc
          rcases List.mem_append.mp hc' with hc' | hc'
          · apply addUsed_mono
            exact h.held_used hcl c hc' p hp
          · rw [List.mem_singleton] at hc'
            subst hc'
            simp only [Option.some.injEq] at hp
            subst hp
            exact mem_addUsed _ _ _
    · intro hcl p hp x hx
      simp only [Pool.step] at hcl hp hx
      split at hp
      · rename_i hn
        simp only [hn] at hcl hx
        exact h.held_shut hcl p hp x hx
      · rename_i k hk
        simp only [hk] at hcl hx
        split at hp
        · rename_i hy
          rw [if_pos hy] at hcl hx
          simp only at hx
          rw [List.getElem?_append] at hx
          split at hx
          · exact h.held_shut hcl p hp x hx
          · simp only [List.getElem?_singleton] at hx
            split at hx
            · cases hx; rfl
            · cases hx
        · rename_i hy
          rw [if_neg hy] at hcl
          exact absurd hcl hy
  | createFailed i => exact ⟨hinv, h.held_used, h.held_shut⟩
  | release c info =>
    simp only [Pool.step]
    split
    · exact h
    · rename_i conn hc
      split
      · exact h
      · rename_i p hp
        split
        · exact h.connectorRelease hc hp _ _ _
        · exact h.connectorRelease hc hp _ _ _
  | close c =>
    simp only [Pool.step]
    split
    · exact h
    · rename_i conn hc
      split
      · exact h
      · rename_i p hp
        exact h.connectorRelease hc hp _ _ _
  | detach c =>
    revert hinv
    simp only [Pool.step]
    split
    · exact fun _ => h
    · rename_i conn hc
      split
      · exact fun _ => h
      · rename_i p hp
        intro hinv
        have hconns : (releaseUsed (forget s c) conn.key p).conns = (forget s c).conns := by
          unfold releaseUsed; split <;> rfl
        have hprotos : (releaseUsed (forget s c) conn.key p).protos = s.protos := by
          unfold releaseUsed; split <;> rfl
        have hclosed : (releaseUsed (forget s c) conn.key p).closed = s.closed := by
          unfold releaseUsed; split <;> rfl
        refine ⟨hinv, ?_, ?_⟩
        · intro hcl d hd q hq
          exact h.forget_used hc hp (by rw [← hclosed]; exact hcl) d (by rw [← hconns]; exact hd) q hq
        · intro hcl q hq x hx
          refine h.held_shut (by rw [← hclosed]; exact hcl) q (held_forget (c := c) ?_) x (by rw [← hprotos]; exact hx)
          unfold held at hq ⊢
          rw [← hconns]; exact hq
  | cleanUp =>
    refine ⟨hinv, ?_, ?_⟩
    · intro hcl c hc p hp
      simp only [Pool.step]
      rw [get_map_filter s.baskets (fun _ b => clean s.now b) (fun _ => rfl) h.inv.keys]
      exact h.held_used hcl c hc p hp
    · intro hcl p hp x hx
      simp only [Pool.step, getElem?_shutAll] at hx
      obtain ⟨y, hy, e⟩ := Option.map_eq_some_iff.mp hx
      have := h.held_shut hcl p hp y hy
      rw [← e]
      split
      · rfl
      · exact this
  | closeConnector =>
    revert hinv
    simp only [Pool.step]
    split
    · exact fun _ => h
    · rename_i hcl
      intro hinv
      have hcl' : s.closed = false := by simpa using hcl
      refine ⟨hinv, (fun hx => by cases hx), ?_⟩
      intro _ p hp x hx
      obtain ⟨c, hc, hcp⟩ := List.mem_filterMap.mp hp
      have hu := h.held_used hcl' c hc p hcp
      simp only [getElem?_shutAll] at hx
      obtain ⟨y, hy, e⟩ := Option.map_eq_some_iff.mp hx
      rw [← e, if_pos]
      refine List.mem_flatMap.mpr ⟨(c.key, s.baskets.get c.key), mem_of_get ?_, List.mem_append_right _ hu⟩
      intro he
      rw [he] at hu
      cases hu
  | change p x =>
    refine ⟨hinv, h.held_used, ?_⟩
    intro hcl q hq
    exact shut_modify (fun y hy => by cases x <;> exact hy) (h.held_shut hcl q hq)
  | tick n => exact ⟨hinv, h.held_used, h.held_shut⟩

theorem Inv2.runAll {s : State} (h : Inv2 s) (ops : List Op) : Inv2 (Pool.runAll s ops) := by
  induction ops generalizing s with
  | nil => exact h
  | cons op ops ih => exact ih (h.step op)

/-- The step takes the protocol from the care of the pool by `detach`. -/
def detaches (s : State) (op : Op) (p : Nat) : Prop := ∃ c conn, op = .detach c ∧ s.conns[c]? = some conn ∧ conn.protocol = some p

theorem not_leaked_release {s : State} (h : Inv2 s) {c : Nat} {conn : Conn} {p : Nat} (hc : s.conns[c]? = some conn)
    (hp : conn.protocol = some p) (close : Bool) (timeout : Int) (performed q : Nat) (hq : ¬ Leaked s q) :
    ¬ Leaked (connectorRelease (forget s c) conn.key p close timeout performed) q := by
  rintro ⟨⟨x, hx, ht, hs⟩, hh, ha⟩
  obtain ⟨a, b, h1, h2⟩ := filterMap_forget s.conns hc hp
  have hheld : ∀ q, q ∈ held s → q ≠ p → q ∈ held (forget s c) := by
    intro q hq hne
    have : q ∈ a ++ p :: b := by rw [← h1]; exact hq
    show q ∈ (s.conns.modify c fun x => { x with protocol := none }).filterMap (·.protocol)
    rw [h2]
    simp only [List.mem_append, List.mem_cons] at this ⊢
    rcases this with h | h | h
    · exact Or.inl h
    · exact absurd h hne
    · exact Or.inr h
  cases hcl : s.closed with
  | true =>
    have e : connectorRelease (forget s c) conn.key p close timeout performed = forget s c := by
      unfold connectorRelease
      rw [if_pos (by exact hcl)]
    rw [e] at hx hh ha
    refine hq ⟨⟨x, hx, ht, hs⟩, fun hm => ?_, ha⟩
    rw [h.held_shut hcl q hm x hx] at hs
    cases hs
  | false =>
    unfold connectorRelease at hx hh ha
    have hncl : ¬ (forget s c).closed = true := by simp [forget, hcl]
    rw [if_neg hncl] at hx hh ha
    have hconns : (releaseUsed (forget s c) conn.key p).conns = (forget s c).conns := by
      unfold releaseUsed; split <;> rfl
    have hprotos : (releaseUsed (forget s c) conn.key p).protos = s.protos := by
      unfold releaseUsed; split <;> rfl
    have havail : ∀ k, ((releaseUsed (forget s c) conn.key p).baskets.get k).available = (s.baskets.get k).available := by
      intro k
      unfold releaseUsed
      rw [if_neg hncl]
      simp only [get_put]
      split
      · rename_i e; rw [e]; rfl
      · rfl
    simp only at hx hh ha
    split at hx
    · rename_i hcond
      rw [if_pos hcond] at hh ha
      unfold shutOne at hx
      simp only at hx
      rw [List.getElem?_modify] at hx
      obtain ⟨y, hy, e⟩ := Option.map_eq_some_iff.mp hx
      rw [hprotos] at hy
      by_cases hpq : p = q
      · rw [if_pos hpq] at e
        rw [← e] at hs
        cases hs
      · rw [if_neg hpq] at e
        subst e
        refine hq ⟨⟨y, hy, ht, hs⟩, fun hm => hh ?_, fun k hm => ha k ?_⟩
        · show q ∈ List.filterMap _ (releaseUsed (forget s c) conn.key p).conns
          rw [hconns]
          exact hheld q hm (Ne.symm hpq)
        · rw [havail]; exact hm
    · rename_i hcond
      rw [if_neg hcond] at hh ha
      simp only at hx
      rw [hprotos] at hx
      have hpq : q ≠ p := by
        rintro rfl
        refine ha conn.key ?_
        simp only [get_put, if_pos]
        simp
      refine hq ⟨⟨x, hx, ht, hs⟩, fun hm => hh ?_, fun k hm => ha k ?_⟩
      · show q ∈ List.filterMap _ (releaseUsed (forget s c) conn.key p).conns
        rw [hconns]
        exact hheld q hm hpq
      · simp only [get_put]
        split
        · rename_i e
          rw [List.map_append, List.mem_append]
          left
          rw [havail, ← e]; exact hm
        · rw [havail]; exact hm

/-- **C53.** In all histories, no step leaks a protocol, which is not leaked before, except that `detach` gives it away, and
that the clean up drops a protocol of a connection that is not secure.  Missing: the clean up of those. -/
theorem C53_not_leaked_partial (forceClose : Bool) (ops : List Op) (op : Op) (p : Nat)
    (hp : ¬ Leaked (runAll { forceClose } ops) p) (hd : ¬ detaches (runAll { forceClose } ops) op p)
    (hc : op = .cleanUp → ∃ x, (runAll { forceClose } ops).protos[p]? = some x ∧ x.origin.secure = true) :
    ¬ Leaked (step (runAll { forceClose } ops) op) p := by
  have h : Inv2 (runAll { forceClose } ops) := (Inv2.init forceClose).runAll ops
  have hcont := C52_contents forceClose ops
  generalize runAll { forceClose } ops = s at hp hd hc h hcont
  cases op with
  | connect k =>
    obtain ⟨d, hperm, _, _, hcl⟩ := C52_dropped s.protos s.now (s.baskets.get k).available (hcont k)
    rintro ⟨⟨x, hx, ht, hs⟩, hh, ha⟩
    simp only [step] at hx hh ha
    generalize pop s.protos s.now (s.baskets.get k).available = r at hx hh ha hperm hcl
    obtain ⟨g, rest, cl⟩ := r
    have hxs : ∃ y, s.protos[p]? = some y ∧ y.transport = true ∧ y.shut = false ∧ p ∉ cl := by
      have hx' : (shutAll s.protos cl)[p]? = some x := by
        cases g with
        | none => exact hx
        | some g => exact hx
      rw [getElem?_shutAll] at hx'
      obtain ⟨y, hy, e⟩ := Option.map_eq_some_iff.mp hx'
      by_cases hm : p ∈ cl
      · rw [if_pos hm] at e
        rw [← e] at hs
        cases hs
      · rw [if_neg hm] at e
        subst e
        exact ⟨y, hy, ht, hs, hm⟩
    obtain ⟨y, hy, hyt, hys, hncl⟩ := hxs
    have hheld : p ∉ held s ∧ ∀ x, g = some x → x.protocol ≠ p := by
      cases g with
      | none => exact ⟨hh, fun x hx => by cases hx⟩
      | some g =>
        have : held { s with conns := s.conns ++ [⟨k, some g.protocol, g.performed⟩] } = held s ++ [g.protocol] := by
          simp [held]
        have hh' : p ∉ held s ++ [g.protocol] := by rw [← this]; exact hh
        simp only [List.mem_append, List.mem_singleton, not_or] at hh'
        exact ⟨hh'.1, fun x hx => by cases hx; exact fun e => hh'.2 e.symm⟩
    have hrest : p ∉ rest.map (·.protocol) := by
      have := ha k
      cases g with
      | none => simpa [get_put] using this
      | some g => simpa [addUsed, get_put] using this
    have hother : ∀ k', k' ≠ k → p ∉ (s.baskets.get k').available.map (·.protocol) := by
      intro k' hk'
      have := ha k'
      cases g with
      | none => simpa [get_put, hk'] using this
      | some g => simpa [addUsed, get_put, hk'] using this
    refine hp ⟨⟨y, hy, hyt, hys⟩, hheld.1, fun k' hm => ?_⟩
    by_cases hk' : k' = k
    · subst hk'
      have hm' := (hperm.map (·.protocol)).mem_iff.mp hm
      simp only [List.map_append, List.mem_append] at hm'
      rcases hm' with (hm' | hm') | hm'
      · cases g with
        | none => simp at hm'
        | some g =>
          simp only [Option.toList_some, List.map_cons, List.map_nil, List.mem_singleton] at hm'
          exact hheld.2 g rfl hm'.symm
      · refine hncl ?_
        simp only at hcl
        rw [hcl]
        rw [List.mem_filter]
        refine ⟨hm', ?_⟩
        rw [hy]
        exact hyt
      · exact hrest hm'
    · exact hother k' hk' hm
  | created i =>
    rintro ⟨⟨x, hx, ht, hs⟩, hh, ha⟩
    simp only [step] at hx hh ha
    split at hx
    · rename_i hn
      simp only [hn] at hh ha
      exact hp ⟨⟨x, hx, ht, hs⟩, hh, ha⟩
    · rename_i k hk
      simp only [hk] at hh ha
      split at hx
      · rename_i hcl
        rw [if_pos hcl] at hh ha
        simp only at hx
        rw [List.getElem?_append] at hx
        split at hx
        · exact hp ⟨⟨x, hx, ht, hs⟩, hh, ha⟩
        · simp only [List.getElem?_singleton] at hx
          split at hx
          · cases hx; cases hs
          · cases hx
      · rename_i hcl
        rw [if_neg hcl] at hh ha
        have hx' : (s.protos ++ [{ origin := k }])[p]? = some x := hx
        have hh' : p ∉ held { s with conns := s.conns ++ [⟨k, some s.protos.length, 0⟩] } := hh
        have : held { s with conns := s.conns ++ [⟨k, some s.protos.length, 0⟩] } = held s ++ [s.protos.length] := by
          simp [held]
        rw [this] at hh'
        simp only [List.mem_append, List.mem_singleton, not_or] at hh'
        rw [List.getElem?_append] at hx'
        split at hx'
        · refine hp ⟨⟨x, hx', ht, hs⟩, hh'.1, fun k' hm => ha k' ?_⟩
          simp only [addUsed, get_put]
          split
          · rename_i e; rw [← e]; exact hm
          · exact hm
        · simp only [List.getElem?_singleton] at hx'
          split at hx'
          · exact hh'.2 (by omega)
          · cases hx'
  | createFailed i => exact hp
  | release c info =>
    simp only [step]
    split
    · exact hp
    · rename_i conn hcn
      split
      · exact hp
      · rename_i q hq
        split
        · exact not_leaked_release h hcn hq _ _ _ p hp
        · exact not_leaked_release h hcn hq _ _ _ p hp
  | close c =>
    simp only [step]
    split
    · exact hp
    · rename_i conn hcn
      split
      · exact hp
      · rename_i q hq
        exact not_leaked_release h hcn hq _ _ _ p hp
  | detach c =>
    simp only [step]
    split
    · exact hp
    · rename_i conn hcn
      split
      · exact hp
      · rename_i q hq
        have hne : p ≠ q := by
          rintro rfl
          exact hd ⟨c, conn, rfl, hcn, hq⟩
        rintro ⟨⟨x, hx, ht, hs⟩, hh, ha⟩
        have hconns : (releaseUsed (forget s c) conn.key q).conns = (forget s c).conns := by
          unfold releaseUsed; split <;> rfl
        have hprotos : (releaseUsed (forget s c) conn.key q).protos = s.protos := by
          unfold releaseUsed; split <;> rfl
        have havail : ∀ k, ((releaseUsed (forget s c) conn.key q).baskets.get k).available = (s.baskets.get k).available := by
          intro k
          unfold releaseUsed
          split
          · rfl
          · simp only [get_put]
            split
            · rename_i e; rw [e]; rfl
            · rfl
        rw [hprotos] at hx
        obtain ⟨a, b, h1, h2⟩ := filterMap_forget s.conns hcn hq
        refine hp ⟨⟨x, hx, ht, hs⟩, fun hm => hh ?_, fun k hm => ha k ?_⟩
        · show p ∈ List.filterMap _ (releaseUsed (forget s c) conn.key q).conns
          rw [hconns]
          show p ∈ (s.conns.modify c fun x => { x with protocol := none }).filterMap (·.protocol)
          have : p ∈ a ++ q :: b := by rw [← h1]; exact hm
          rw [h2]
          simp only [List.mem_append, List.mem_cons] at this ⊢
          rcases this with h | h | h
          · exact Or.inl h
          · exact absurd h hne
          · exact Or.inr h
        · rw [havail]; exact hm
  | cleanUp =>
    obtain ⟨z, hz, hsec⟩ := hc rfl
    rintro ⟨⟨x, hx, ht, hs⟩, hh, ha⟩
    simp only [step] at hx hh ha
    rw [getElem?_shutAll] at hx
    obtain ⟨y, hy, e⟩ := Option.map_eq_some_iff.mp hx
    by_cases hm : p ∈ s.baskets.flatMap fun e => cleaned s.now e.1 e.2
    · rw [if_pos hm] at e
      rw [← e] at hs
      cases hs
    · rw [if_neg hm] at e
      subst e
      refine hp ⟨⟨y, hy, ht, hs⟩, hh, fun k hk => ?_⟩
      obtain ⟨item, hitem, hitemp⟩ := List.mem_map.mp hk
      have ho := (h.inv.avail k item hitem).1
      rw [hitemp] at ho
      unfold origin at ho
      rw [hz] at ho
      have hksec : k.secure = true := by
        have : z.origin = k := by simpa using ho
        rw [← this]; exact hsec
      by_cases hexp : s.now < item.expiration
      · refine ha k ?_
        rw [get_map_filter s.baskets (fun _ b => clean s.now b) (fun _ => rfl) h.inv.keys]
        exact List.mem_map.mpr ⟨item, List.mem_filter.mpr ⟨hitem, by simpa using hexp⟩, hitemp⟩
      · refine hm (List.mem_flatMap.mpr ⟨(k, s.baskets.get k), mem_of_get ?_, ?_⟩)
        · intro he
          rw [he] at hitem
          cases hitem
        · unfold cleaned
          rw [if_pos hksec]
          exact List.mem_map.mpr ⟨item, List.mem_filter.mpr ⟨hitem, by simpa using hexp⟩, hitemp⟩
  | closeConnector =>
    simp only [step]
    split
    · exact hp
    · rename_i hcl
      rintro ⟨⟨x, hx, ht, hs⟩, hh, ha⟩
      simp only at hx
      rw [getElem?_shutAll] at hx
      obtain ⟨y, hy, e⟩ := Option.map_eq_some_iff.mp hx
      split at e
      · rw [← e] at hs; cases hs
      · rename_i hm
        subst e
        refine hp ⟨⟨y, hy, ht, hs⟩, hh, fun k hk => hm ?_⟩
        refine List.mem_flatMap.mpr ⟨(k, s.baskets.get k), mem_of_get ?_, List.mem_append_left _ hk⟩
        intro he
        rw [he] at hk
        cases hk
  | change q x =>
    rintro ⟨⟨y, hy, ht, hs⟩, hh, ha⟩
    simp only [step] at hy hh ha
    rw [List.getElem?_modify] at hy
    obtain ⟨z, hz, e⟩ := Option.map_eq_some_iff.mp hy
    have hz' : z.transport = true ∧ z.shut = false := by
      split at e
      · subst e
        cases x <;> first | exact ⟨ht, hs⟩ | cases ht
      · subst e; exact ⟨ht, hs⟩
    exact hp ⟨⟨z, hz, hz'.1, hz'.2⟩, hh, ha⟩
  | tick n => exact hp

/-- All keys are those of secure connections. -/
def Secure (s : State) : Prop := (∀ k ∈ s.pending, k.secure = true) ∧ ∀ x ∈ s.protos, x.origin.secure = true

theorem secure_modify {protos : List Proto} (h : ∀ x ∈ protos, x.origin.secure = true) {i : Nat} {f : Proto → Proto}
    (hf : ∀ x, (f x).origin = x.origin) : ∀ x ∈ protos.modify i f, x.origin.secure = true := by
  intro x hx
  obtain ⟨j, hj⟩ := List.mem_iff_getElem?.mp hx
  rw [List.getElem?_modify] at hj
  obtain ⟨y, hy, e⟩ := Option.map_eq_some_iff.mp hj
  split at e
  · rw [← e, hf]; exact h y (List.mem_of_getElem? hy)
  · rw [← e]; exact h y (List.mem_of_getElem? hy)

theorem secure_shutAll {protos : List Proto} (h : ∀ x ∈ protos, x.origin.secure = true) (ps : List Nat) :
    ∀ x ∈ shutAll protos ps, x.origin.secure = true := by
  induction ps generalizing protos with
  | nil => exact h
  | cons p ps ih => exact ih (secure_modify h fun _ => rfl)

theorem secure_release {s : State} (h : Secure s) (c : Nat) (k : Key) (p : Nat) (close : Bool) (timeout : Int)
    (performed : Nat) : Secure (connectorRelease (forget s c) k p close timeout performed) := by
  have h1 : Secure (releaseUsed (forget s c) k p) := by
    unfold releaseUsed; split <;> exact h
  unfold connectorRelease
  split
  · exact h
  · simp only
    split
    · exact ⟨h1.1, secure_modify h1.2 fun _ => rfl⟩
    · exact h1

theorem get_of_mem {bs : Baskets} (h : (bs.map (·.1)).Nodup) {k : Key} {b : Basket} (hm : (k, b) ∈ bs) : bs.get k = b := by
  induction bs with
  | nil => cases hm
  | cons e bs ih =>
    rw [List.map_cons, List.nodup_cons] at h
    rw [get_cons]
    rcases List.mem_cons.mp hm with rfl | hm
    · rw [if_pos rfl]
    · rw [if_neg, ih h.2 hm]
      rintro rfl
      exact h.1 (List.mem_map.mpr ⟨_, hm, rfl⟩)

theorem inj_of_nodup {items : List Item} (h : (items.map (·.protocol)).Nodup) {x y : Item} (hx : x ∈ items) (hy : y ∈ items)
    (e : x.protocol = y.protocol) : x = y := by
  induction items with
  | nil => cases hx
  | cons z items ih =>
    rw [List.map_cons, List.nodup_cons] at h
    rcases List.mem_cons.mp hx with hx' | hx'
    · rcases List.mem_cons.mp hy with hy' | hy'
      · rw [hx', hy']
      · exact absurd (List.mem_map.mpr ⟨y, hy', by rw [← e, hx']⟩) h.1
    · rcases List.mem_cons.mp hy with hy' | hy'
      · exact absurd (List.mem_map.mpr ⟨x, hx', by rw [e, hy']⟩) h.1
      · exact ih h.2 hx' hy'

/-- **C53.** With only secure connections nothing is leaked but what was detached. -/
theorem C53_secure_partial (forceClose : Bool) (ops : List Op) (hsec : ∀ k, .connect k ∈ ops → k.secure = true)
    (hdet : ∀ c, .detach c ∉ ops) (p : Nat) : ¬ Leaked (runAll { forceClose } ops) p := by
  have hstep : ∀ (s : State) (op : Op), (∀ k, op = .connect k → k.secure = true) → Secure s → Secure (step s op) := by
    intro s op hop hs
    cases op with
    | connect k =>
      have hk := hop k rfl
      simp only [step]
      split
      · refine ⟨?_, secure_shutAll hs.2 _⟩
        intro k' hk'
        rcases List.mem_append.mp hk' with h | h
        · exact hs.1 k' h
        · rw [List.mem_singleton.mp h]; exact hk
      · exact ⟨hs.1, secure_shutAll hs.2 _⟩
    | created i =>
      simp only [step]
      split
      · exact hs
      · rename_i k hk
        have hksec := hs.1 k (List.mem_of_getElem? hk)
        have hpend : ∀ k ∈ s.pending.eraseIdx i, k.secure = true := fun k hk => hs.1 k (List.mem_of_mem_eraseIdx hk)
        split
        · refine ⟨hpend, ?_⟩
          intro x hx
          rcases List.mem_append.mp hx with h | h
          · exact hs.2 x h
          · rw [List.mem_singleton.mp h]; exact hksec
        · refine ⟨hpend, ?_⟩
          intro x hx
          rcases List.mem_append.mp hx with h | h
          · exact hs.2 x h
          · rw [List.mem_singleton.mp h]; exact hksec
    | createFailed i => exact ⟨fun k hk => hs.1 k (List.mem_of_mem_eraseIdx hk), hs.2⟩
    | release c info =>
      simp only [step]
      split
      · exact hs
      · split
        · exact hs
        · split <;> exact secure_release hs _ _ _ _ _ _
    | close c =>
      simp only [step]
      split
      · exact hs
      · split
        · exact hs
        · exact secure_release hs _ _ _ _ _ _
    | detach c =>
      simp only [step]
      split
      · exact hs
      · split
        · exact hs
        · unfold releaseUsed; split <;> exact hs
    | cleanUp => exact ⟨hs.1, secure_shutAll hs.2 _⟩
    | closeConnector =>
      simp only [step]
      split
      · exact hs
      · exact ⟨hs.1, secure_shutAll hs.2 _⟩
    | change p x => exact ⟨hs.1, secure_modify hs.2 fun y => by cases x <;> rfl⟩
    | tick n => exact hs
  have key : ∀ ops pre : List Op, (∀ k, .connect k ∈ ops → k.secure = true) → (∀ c, .detach c ∉ ops) →
      Secure (runAll { forceClose } pre) → ¬ Leaked (runAll { forceClose } pre) p →
      ¬ Leaked (runAll { forceClose } (pre ++ ops)) p := by
    intro ops
    induction ops with
    | nil => intro pre _ _ _ h; rw [List.append_nil]; exact h
    | cons op ops ih =>
      intro pre hsec hdet hs hl
      have e : pre ++ op :: ops = (pre ++ [op]) ++ ops := by simp
      have e2 : runAll { forceClose } (pre ++ [op]) = step (runAll { forceClose } pre) op := by
        simp [runAll]
      rw [e]
      refine ih (pre ++ [op]) (fun k hk => hsec k (by simp [hk])) (fun c hc => hdet c (by simp [hc])) ?_ ?_
      · rw [e2]
        exact hstep _ _ (fun k hk => hsec k (by simp [hk])) hs
      · rw [e2]
        by_cases hlen : ∃ x, (runAll { forceClose } pre).protos[p]? = some x
        · obtain ⟨x, hx⟩ := hlen
          refine C53_not_leaked_partial forceClose pre op p hl ?_ fun _ => ⟨x, hx, hs.2 x (List.mem_of_getElem? hx)⟩
          rintro ⟨c, _, hc, _⟩
          exact hdet c (by simp [hc])
        · by_cases hcl : op = .cleanUp
          · subst hcl
            rintro ⟨⟨x, hx, _⟩, _⟩
            simp only [step, getElem?_shutAll] at hx
            obtain ⟨y, hy, _⟩ := Option.map_eq_some_iff.mp hx
            exact hlen ⟨y, hy⟩
          · refine C53_not_leaked_partial forceClose pre op p hl ?_ fun h => absurd h hcl
            rintro ⟨c, _, hc, _⟩
            exact hdet c (by simp [hc])
  refine key ops [] hsec hdet ⟨?_, ?_⟩ ?_
  · intro k hk; cases hk
  · intro k hk; cases hk
  · rintro ⟨⟨x, hx, _⟩, _⟩; cases hx

/-- **C53, violated.** The clean up leaks every expired protocol of a connection that is not secure. -/
theorem C53_clean_up_violated (forceClose : Bool) (ops : List Op) (k : Key) (hk : k.secure = false) (x : Item)
    (hx : x ∈ ((runAll { forceClose } ops).baskets.get k).available) (he : x.expiration ≤ (runAll { forceClose } ops).now)
    (y : Proto) (hy : (runAll { forceClose } ops).protos[x.protocol]? = some y) (ht : y.transport = true)
    (hs : y.shut = false) : Leaked (step (runAll { forceClose } ops) .cleanUp) x.protocol := by
  have h : Inv (runAll { forceClose } ops) := (Inv.init forceClose).runAll ops
  have hav := C51_available forceClose ops k
  generalize runAll { forceClose } ops = s at *
  have hxa := h.avail k x hx
  have hget := get_map_filter s.baskets (fun _ b => clean s.now b) (fun _ => rfl) h.keys
  refine ⟨⟨y, ?_, ht, hs⟩, hxa.2, ?_⟩
  · simp only [step, getElem?_shutAll, hy, Option.map_some, Option.some.injEq]
    rw [if_neg]
    intro hm
    obtain ⟨⟨k', b⟩, he, hm⟩ := List.mem_flatMap.mp hm
    unfold cleaned at hm
    simp only at hm
    split at hm
    · rename_i hsec
      obtain ⟨z, hz, hzp⟩ := List.mem_map.mp hm
      have hz' := (List.mem_filter.mp hz).1
      have hb : s.baskets.get k' = b := get_of_mem h.keys he
      rw [← hb] at hz'
      have := (h.avail k' z hz').1
      rw [hzp, hxa.1] at this
      rw [Option.some.inj this, hsec] at hk
      cases hk
    · cases hm
  · intro k' hm
    simp only [step] at hm
    rw [hget k'] at hm
    obtain ⟨z, hz, hzp⟩ := List.mem_map.mp hm
    obtain ⟨hz, hzn⟩ := List.mem_filter.mp hz
    have hkk : k' = k := by
      have := (h.avail k' z hz).1
      rw [hzp, hxa.1] at this
      exact (Option.some.inj this).symm
    subst hkk
    have hzx : z = x := inj_of_nodup (h.nodup k') hz hx hzp
    subst hzx
    simp at hzn
    omega

/-- The history of one request over plain `http`, and of the clean up after its time is over. -/
theorem C53_plain_request_violated :
    Leaked (runAll {} [.connect ⟨0, false⟩, .created 0, .release 0 (some ⟨15, 0⟩), .tick 20, .cleanUp]) 0 := by
  refine ⟨⟨{ origin := ⟨0, false⟩ }, ?_, rfl, rfl⟩, ?_, ?_⟩
  · simp [runAll, step, pop, lowest, Baskets.get, Baskets.put, addUsed, forget, connectorRelease, connectionCloses,
      shouldClose, releaseUsed, Proto.shouldClose, shutAll, cleaned, clean]
  · simp [runAll, step, pop, lowest, Baskets.get, Baskets.put, addUsed, forget, connectorRelease, connectionCloses,
      shouldClose, releaseUsed, Proto.shouldClose, shutAll, cleaned, clean, held]
  · simp [runAll, step, pop, lowest, Baskets.get, Baskets.put, addUsed, forget, connectorRelease, connectionCloses,
      shouldClose, releaseUsed, Proto.shouldClose, shutAll, cleaned, clean]

/-- The same over `https`. -/
example : (runAll {} [.connect ⟨0, true⟩, .created 0, .release 0 (some ⟨15, 0⟩), .tick 20, .cleanUp]).protos
    = [{ origin := ⟨0, true⟩, shut := true }] := by
  simp [runAll, step, pop, lowest, Baskets.get, Baskets.put, addUsed, forget, connectorRelease, connectionCloses,
    shouldClose, releaseUsed, Proto.shouldClose, shutAll, shutOne, cleaned, clean]

end Verif.Pool
