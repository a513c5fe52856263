import Verif.WinSelect.Model

/-!
# Windows selector: shards, what is reported, what is unregistered
-/

namespace Verif.WinSelect

/-! ## Shards -/

theorem readers_spec (fs : List Nat) (cur : Shard) (count : Nat) (hc : count = cur.1.length) (hw : cur.2 = [])
    (hle : count ≤ 500) :
    let x := shardReaders fs cur count
    (x.1.flatMap (·.1)) ++ x.2.1.1 = cur.1 ++ fs ∧ x.1.flatMap (·.2) = [] ∧ x.2.1.2 = [] ∧
      x.2.2 = x.2.1.1.length ∧ x.2.2 ≤ 500 ∧ ∀ s ∈ x.1, s.1.length + s.2.length ≤ 500 := by
  induction fs generalizing cur count with
  | nil => simp [shardReaders, hw, hc.symm, hle]
  | cons f fs ih =>
    unfold shardReaders
    split
    · have := ih ([f], []) 1 rfl rfl (by omega)
      dsimp only at this ⊢
      refine ⟨?_, ?_, this.2.2.1, this.2.2.2.1, this.2.2.2.2.1, ?_⟩
      · rw [List.flatMap_cons, List.append_assoc, this.1]; rfl
      · rw [List.flatMap_cons, this.2.1, hw]; rfl
      · intro s hs
        rcases List.mem_cons.1 hs with rfl | hs
        · rw [hw]; simp; omega
        · exact this.2.2.2.2.2 s hs
    · have := ih (cur.1 ++ [f], cur.2) (count + 1) (by simp [hc]) hw (by omega)
      dsimp only at this ⊢
      simpa using this

theorem writers_spec (fs : List Nat) (cur : Shard) (count : Nat) (hc : count = cur.1.length + cur.2.length)
    (hle : count ≤ 500) :
    (shardWriters fs cur count).flatMap (·.1) = cur.1 ∧ (shardWriters fs cur count).flatMap (·.2) = cur.2 ++ fs ∧
      ∀ s ∈ shardWriters fs cur count, s.1.length + s.2.length ≤ 500 := by
  induction fs generalizing cur count with
  | nil => simp [shardWriters]; omega
  | cons f fs ih =>
    unfold shardWriters
    split
    · have := ih ([], [f]) 1 rfl (by omega)
      refine ⟨?_, ?_, ?_⟩
      · rw [List.flatMap_cons, this.1]; simp
      · rw [List.flatMap_cons, this.2.1]; rfl
      · intro s hs
        rcases List.mem_cons.1 hs with rfl | hs
        · omega
        · exact this.2.2 s hs
    · have := ih (cur.1, cur.2 ++ [f]) (count + 1) (by simp; omega) (by omega)
      simpa using this

/-- C300: every reader and every writer is in exactly one shard, in order, and no shard has more than 500
descriptors. -/
theorem C300_shards (rs ws : List Nat) :
    (shards rs ws).flatMap (·.1) = rs ∧ (shards rs ws).flatMap (·.2) = ws ∧
      ∀ s ∈ shards rs ws, s.1.length + s.2.length ≤ 500 := by
  have h1 := readers_spec rs ([], []) 0 rfl rfl (by omega)
  unfold shards
  dsimp only at h1 ⊢
  have h2 := writers_spec ws (shardReaders rs ([], []) 0).2.1 (shardReaders rs ([], []) 0).2.2
    (by rw [h1.2.2.1, h1.2.2.2.1]; rfl) h1.2.2.2.2.1
  refine ⟨?_, ?_, ?_⟩
  · rw [List.flatMap_append, h2.1]; exact h1.1
  · rw [List.flatMap_append, h2.2.1, h1.2.1, h1.2.2.1]; rfl
  · intro s hs
    rcases List.mem_append.1 hs with hs | hs
    · exact h1.2.2.2.2.2 s hs
    · exact h2.2.2 s hs

example : (shards (List.replicate 600 1) (List.replicate 450 2)).map (fun s => (s.1.length, s.2.length)) =
    [(500, 0), (100, 400), (0, 50)] := by decide +kernel

/-! ## What is reported -/

/-- A call reports the readers `rs` and the writers `ws` right: those that are ready and not broken, and
unregisters those that are broken. -/
structure Right (W : World) (rs ws : List Nat) (o : Out) : Prop where
  readers : ∀ f, .fd f ∈ o.r ↔ f ∈ rs ∧ W.readable f = true ∧ W.broken f = false
  sockets : ∀ f, .socket f ∉ o.r
  writers : ∀ f, f ∈ o.w ↔ f ∈ ws ∧ (W.writable f = true ∨ W.failed f = true) ∧ W.broken f = false
  gone : ∀ f, f ∈ o.gone ↔ (f ∈ rs ∨ f ∈ ws) ∧ W.broken f = true

theorem sys_right (W : World) (rs ws r w x : List Nat) (h : sys W rs ws = .ok (r, w, x)) :
    Right W rs ws ⟨r.map .fd, w ++ x, []⟩ := by
  unfold sys at h
  split at h
  · cases h
  · split at h
    · cases h
    · rename_i hb
      have hb' : ∀ f, f ∈ rs ∨ f ∈ ws → W.broken f = false := by
        intro f hf
        cases hc : W.broken f with
        | false => rfl
        | true => exact absurd (List.any_eq_true.2 ⟨f, List.mem_append.2 hf, hc⟩) hb
      injection h with h
      injection h with h1 h2
      injection h2 with h2 h3
      subst h1 h2 h3
      constructor <;> intro f
      · simp
        intro hf
        simp [hb' f (.inl hf)]
      · simp
      · simp
        constructor
        · rintro (h | h)
          · exact ⟨h.1, .inl h.2, hb' f (.inr h.1)⟩
          · exact ⟨h.1, .inr h.2, hb' f (.inr h.1)⟩
        · rintro ⟨h1, h2 | h2, _⟩
          · exact .inl ⟨h1, h2⟩
          · exact .inr ⟨h1, h2⟩
      · simp
        intro hf
        simp [hb' f hf]

theorem sys_one_reader (W : World) (f : Nat) (hl : 1 ≤ W.limit) :
    sys W [f] [] = if W.broken f then .error .os else .ok ([f].filter W.readable, [], []) := by
  unfold sys
  rw [if_neg (by simp; omega)]
  simp

theorem sys_one_writer (W : World) (f : Nat) (hl : 1 ≤ W.limit) :
    sys W [] [f] = if W.broken f then .error .os else .ok ([], [f].filter W.writable, [f].filter W.failed) := by
  unfold sys
  rw [if_neg (by simp; omega)]
  simp

theorem probeReaders_right (W : World) (hl : 1 ≤ W.limit) (rs : List Nat) : ∃ c g, probeReaders W rs = .ok (c, g) ∧
    (∀ f, f ∈ c ↔ f ∈ rs ∧ W.readable f = true ∧ W.broken f = false) ∧ ∀ f, f ∈ g ↔ f ∈ rs ∧ W.broken f = true := by
  induction rs with
  | nil => exact ⟨[], [], rfl, by simp, by simp⟩
  | cons x rs ih =>
    obtain ⟨c, g, h, hc, hg⟩ := ih
    unfold probeReaders
    rw [sys_one_reader W x hl, h]
    cases hb : W.broken x with
    | true =>
      refine ⟨c, x :: g, rfl, ?_, ?_⟩ <;> intro f <;> simp only [List.mem_cons, hc, hg] <;> grind
    | false =>
      refine ⟨[x].filter W.readable ++ c, g, rfl, ?_, ?_⟩ <;> intro f <;>
        simp only [List.mem_append, List.mem_filter, List.mem_cons, hc, hg] <;> grind

theorem probeWriters_right (W : World) (hl : 1 ≤ W.limit) (ws : List Nat) : ∃ c g, probeWriters W ws = .ok (c, g) ∧
    (∀ f, f ∈ c ↔ f ∈ ws ∧ (W.writable f = true ∨ W.failed f = true) ∧ W.broken f = false) ∧
      ∀ f, f ∈ g ↔ f ∈ ws ∧ W.broken f = true := by
  induction ws with
  | nil => exact ⟨[], [], rfl, by simp, by simp⟩
  | cons x ws ih =>
    obtain ⟨c, g, h, hc, hg⟩ := ih
    unfold probeWriters
    rw [sys_one_writer W x hl, h]
    cases hb : W.broken x with
    | true =>
      refine ⟨c, x :: g, rfl, ?_, ?_⟩ <;> intro f <;> simp only [List.mem_cons, hc, hg] <;> grind
    | false =>
      refine ⟨(if [x].filter W.writable ≠ [] then [x].filter W.writable else [x].filter W.failed) ++ c, g, rfl, ?_, ?_⟩ <;>
        intro f <;> simp only [List.mem_append, List.mem_cons, hc, hg]
      · cases hw : W.writable x <;> cases hf : W.failed x <;> simp [hw, hf] <;> grind
      · grind

theorem probe_right (W : World) (hl : 1 ≤ W.limit) (rs ws : List Nat) : ∃ o, probe W rs ws = .ok o ∧ Right W rs ws o := by
  obtain ⟨c, g, h, hc, hg⟩ := probeReaders_right W hl rs
  obtain ⟨c', g', h', hc', hg'⟩ := probeWriters_right W hl ws
  unfold probe
  rw [h, h']
  refine ⟨_, rfl, ?_⟩
  constructor <;> intro f
  · simp [hc]
  · simp
  · exact hc' f
  · simp [hg, hg']
    grind

theorem sys_small (W : World) (rs ws : List Nat) (hr : rs.length ≤ W.limit) (hw : ws.length ≤ W.limit) :
    sys W rs ws = .error .os ∨ ∃ r w x, sys W rs ws = .ok (r, w, x) := by
  unfold sys
  rw [if_neg (by omega)]
  split
  · exact .inl rfl
  · exact .inr ⟨_, _, _, rfl⟩

theorem pollShards_right (W : World) (hl : 500 ≤ W.limit) (ss : List Shard)
    (hs : ∀ s ∈ ss, s.1.length + s.2.length ≤ 500) :
    ∃ o, pollShards W ss = .ok o ∧ Right W (ss.flatMap (·.1)) (ss.flatMap (·.2)) o := by
  induction ss with
  | nil =>
    refine ⟨{}, rfl, ?_⟩
    constructor <;> simp
  | cons s ss ih =>
    rcases s with ⟨rs, ws⟩
    obtain ⟨o', h', hr'⟩ := ih (fun s h => hs s (by simp [h]))
    have hlen : rs.length + ws.length ≤ 500 := hs (rs, ws) (by simp)
    have here : ∃ o, pollShard W rs ws = .ok o ∧ Right W rs ws o := by
      unfold pollShard
      rcases sys_small W rs ws (by omega) (by omega) with h | ⟨r, w, x, h⟩
      · rw [h]; exact probe_right W (by omega) rs ws
      · rw [h]; exact ⟨_, rfl, sys_right W rs ws r w x h⟩
    obtain ⟨o, h, hr⟩ := here
    unfold pollShards
    rw [h, h']
    refine ⟨_, rfl, ?_⟩
    constructor <;> intro f
    · simp only [List.mem_append, List.flatMap_cons, hr.readers, hr'.readers]; grind
    · simp only [List.mem_append, not_or]; exact ⟨hr.sockets f, hr'.sockets f⟩
    · simp only [List.mem_append, List.flatMap_cons, hr.writers, hr'.writers]; grind
    · simp only [List.mem_append, List.flatMap_cons, hr.gone, hr'.gone]; grind

theorem select_few (W : World) (hl : 500 ≤ W.limit) (self : Nat) (rs ws : List Nat) (hr : rs.length ≤ W.limit)
    (hw : ws.length ≤ W.limit) : ∃ o, select W self rs ws = .ok o ∧ Right W rs ws o := by
  unfold select
  rcases sys_small W rs ws hr hw with h | ⟨r, w, x, h⟩
  · rw [h]
    obtain ⟨o, h1, h2⟩ := probe_right W (by omega) rs ws
    dsimp only
    rw [h1]
    dsimp only
    split
    · exact ⟨o, rfl, h2⟩
    · rename_i hn
      have hn1 : o.r = [] := Classical.byContradiction fun h => hn (.inl h)
      have hn2 : o.w = [] := Classical.byContradiction fun h => hn (.inr h)
      rcases sys_small W (rs.filter (· ∉ o.gone)) (ws.filter (· ∉ o.gone))
        (Nat.le_trans (List.length_filter_le _ _) hr) (Nat.le_trans (List.length_filter_le _ _) hw) with h3 | ⟨r, w, x, h3⟩
      · exfalso
        unfold sys at h3
        split at h3
        · cases h3
        · split at h3
          · rename_i hb
            obtain ⟨f, hf, hb⟩ := List.any_eq_true.1 hb
            rcases List.mem_append.1 hf with hf | hf <;> simp only [List.mem_filter, decide_eq_true_eq, h2.gone] at hf <;> grind
          · cases h3
      · rw [h3]
        refine ⟨_, rfl, ?_⟩
        have h4 := sys_right W _ _ r w x h3
        constructor <;> intro f
        · have := h4.readers f
          dsimp only at this ⊢
          rw [this]
          simp only [List.mem_filter, decide_eq_true_eq, h2.gone]
          grind
        · exact h4.sockets f
        · have := h4.writers f
          dsimp only at this ⊢
          rw [this]
          simp only [List.mem_filter, decide_eq_true_eq, h2.gone]
          grind
        · exact h2.gone f
  · rw [h]; exact ⟨_, rfl, sys_right W rs ws r w x h⟩

/-- C301: as long as the system takes all descriptors at once, a call reports exactly those which are ready,
the one that wakes the loop up too, and unregisters exactly those which are broken. -/
theorem C301_few (W : World) (hl : 500 ≤ W.limit) (self : Nat) (rs ws : List Nat) (hr : rs.length ≤ W.limit)
    (hw : ws.length ≤ W.limit) : ∃ o, select W self rs ws = .ok o ∧ Right W rs ws o :=
  select_few W hl self rs ws hr hw

theorem sys_many (W : World) (rs ws : List Nat) (h : W.limit < rs.length ∨ W.limit < ws.length) :
    sys W rs ws = .error .value := by
  unfold sys
  rw [if_pos h]

/-- C301: with more descriptors too, for all but the one that wakes the loop up. -/
theorem C301_many (W : World) (hl : 500 ≤ W.limit) (self : Nat) (rs ws : List Nat) (hs : self ∈ rs)
    (hn : rs.Nodup) (hb : W.broken self = false) (h : W.limit < rs.length ∨ W.limit < ws.length) :
    ∃ o, select W self rs ws = .ok o ∧
      (∀ f, .fd f ∈ o.r ↔ f ∈ rs ∧ f ≠ self ∧ W.readable f = true ∧ W.broken f = false) ∧
      (∀ f, f ∈ o.w ↔ f ∈ ws ∧ (W.writable f = true ∨ W.failed f = true) ∧ W.broken f = false) ∧
      (∀ f, f ∈ o.gone ↔ (f ∈ rs ∨ f ∈ ws) ∧ W.broken f = true) := by
  have hsh := C300_shards (rs.erase self) ws
  obtain ⟨o, h1, h2⟩ := pollShards_right W hl (shards (rs.erase self) ws) hsh.2.2
  rw [hsh.1, hsh.2.1] at h2
  have her : ∀ f, f ∈ rs.erase self ↔ f ≠ self ∧ f ∈ rs := fun f => hn.mem_erase_iff
  have hgone : ∀ f, f ∈ o.gone ↔ (f ∈ rs ∨ f ∈ ws) ∧ W.broken f = true := by
    intro f
    rw [h2.gone, her]
    constructor
    · rintro ⟨h | h, hb⟩
      · exact ⟨.inl h.2, hb⟩
      · exact ⟨.inr h, hb⟩
    · rintro ⟨h | h, hb'⟩
      · refine ⟨.inl ⟨?_, h⟩, hb'⟩
        rintro rfl
        rw [hb] at hb'; cases hb'
      · exact ⟨.inr h, hb'⟩
  unfold select
  rw [sys_many W rs ws h]
  dsimp only
  rw [if_neg (by simp [hs]), h1]
  dsimp only
  split
  · rename_i he
    rw [sys_one_reader W self (by omega), hb]
    refine ⟨_, rfl, ?_, ?_, hgone⟩
    · intro f
      have := h2.readers f
      rw [he.1] at this
      simp only [List.not_mem_nil, false_iff] at this
      rw [her] at this
      simp
      grind
    · intro f
      exact h2.writers f
  · refine ⟨_, rfl, ?_, h2.writers, hgone⟩
    intro f
    rw [h2.readers, her]
    grind

/-- A world in which one descriptor is ready and another one is broken. -/
def exampleWorld : World := { limit := 512, readable := fun f => f == 3, writable := fun _ => false, failed := fun f => f == 4, broken := fun f => f == 5 }

example : (match select exampleWorld 0 [0, 3, 5] [4] with
    | .ok o => o == ⟨[.fd 3], [4], [5]⟩
    | .error _ => false) = true := by decide

/-! ## The socket which wakes the loop up -/

/-- C302 (partial), full statement: whenever the socket that wakes the loop up is readable its descriptor is
reported. Proved as long as the system takes all descriptors at once. -/
theorem C302_woken_partial (W : World) (hl : 500 ≤ W.limit) (self : Nat) (rs ws : List Nat) (hs : self ∈ rs)
    (hr : rs.length ≤ W.limit) (hw : ws.length ≤ W.limit) (hb : W.broken self = false) (hrd : W.readable self = true) :
    ∃ o, select W self rs ws = .ok o ∧ .fd self ∈ o.r := by
  obtain ⟨o, h, h'⟩ := select_few W hl self rs ws hr hw
  exact ⟨o, h, (h'.readers self).2 ⟨hs, hrd, hb⟩⟩

/-- C302: with more descriptors its descriptor is never reported. -/
theorem C302_not_reported_violated (W : World) (hl : 500 ≤ W.limit) (self : Nat) (rs ws : List Nat) (hs : self ∈ rs)
    (hn : rs.Nodup) (hb : W.broken self = false) (h : W.limit < rs.length ∨ W.limit < ws.length) :
    ∃ o, select W self rs ws = .ok o ∧ .fd self ∉ o.r := by
  obtain ⟨o, h1, h2, _, _⟩ := C301_many W hl self rs ws hs hn hb h
  exact ⟨o, h1, fun hf => ((h2 self).1 hf).2.1 rfl⟩

/-- C302: when nothing else is ready the socket itself is reported instead, for which the selector has no key;
when anything else is, not even that. -/
theorem C302_socket_instead_violated (W : World) (hl : 500 ≤ W.limit) (self : Nat) (rs ws : List Nat) (hs : self ∈ rs)
    (hn : rs.Nodup) (hb : W.broken self = false) (hrd : W.readable self = true)
    (h : W.limit < rs.length ∨ W.limit < ws.length) :
    ∃ o, select W self rs ws = .ok o ∧
      (.socket self ∈ o.r ↔
        (∀ f ∈ rs, f ≠ self → W.broken f = false → W.readable f = false) ∧
          ∀ f ∈ ws, W.broken f = false → W.writable f = false ∧ W.failed f = false) := by
  have hsh := C300_shards (rs.erase self) ws
  obtain ⟨o, h1, h2⟩ := pollShards_right W hl (shards (rs.erase self) ws) hsh.2.2
  rw [hsh.1, hsh.2.1] at h2
  have her : ∀ f, f ∈ rs.erase self ↔ f ≠ self ∧ f ∈ rs := fun f => hn.mem_erase_iff
  unfold select
  rw [sys_many W rs ws h]
  dsimp only
  rw [if_neg (by simp [hs]), h1]
  dsimp only
  split
  · rename_i he
    rw [sys_one_reader W self (by omega), hb]
    refine ⟨_, rfl, ?_⟩
    simp only [List.filter_cons, hrd, if_true, List.filter_nil, List.map_cons, List.map_nil, List.mem_singleton, true_iff]
    refine ⟨?_, ?_⟩
    · intro f hf hne hbf
      cases hc : W.readable f with
      | false => rfl
      | true =>
        have := (h2.readers f).2 ⟨(her f).2 ⟨hne, hf⟩, hc, hbf⟩
        rw [he.1] at this
        cases this
    · intro f hf hbf
      have : ¬(W.writable f = true ∨ W.failed f = true) := by
        intro hc
        have := (h2.writers f).2 ⟨hf, hc, hbf⟩
        rw [he.2] at this
        cases this
      simpa using this
  · rename_i he
    refine ⟨o, rfl, ?_⟩
    refine ⟨fun hf => absurd hf (h2.sockets self), ?_⟩
    rintro ⟨hr, hw⟩
    exfalso
    apply he
    refine ⟨?_, ?_⟩
    · rcases hc : o.r with _ | ⟨i, l⟩
      · rfl
      · cases i with
        | fd f =>
          have := (h2.readers f).1 (by rw [hc]; simp)
          have h3 := (her f).1 this.1
          have := hr f h3.2 h3.1 this.2.2
          simp_all
        | socket f => exact absurd (by rw [hc]; simp) (h2.sockets f)
    · rcases hc : o.w with _ | ⟨f, l⟩
      · rfl
      · have := (h2.writers f).1 (by rw [hc]; simp)
        have h3 := hw f this.1 this.2.2
        simp_all

example : ((shards (List.range 600) []).length, (List.range 600).Nodup) = (2, True) := by
  simp [List.nodup_range]
  decide +kernel

end Verif.WinSelect
