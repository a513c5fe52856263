import Verif.Resolve.Props

/-!
# C289–C293: address infos and name infos
-/

namespace Verif.Resolve

/-! ## C289: what is asked for is given -/

/-- The pairs of type and protocol that belong together. -/
inductive Pair : Ty → Nat → Prop
  | dgram : Pair .dgram 17
  | stream : Pair .stream 6
  | raw : Pair .raw 0

theorem addressOf_spec (fs : List Family) (r : Record) (f : Family) (a : Nat)
    (h : addressOf fs r = some (f, a)) :
    f ∈ fs ∧ r.address = some a ∧ ((f = .v4 ∧ r.kind = .v4) ∨ (f = .v6 ∧ r.kind = .v6)) := by
  unfold addressOf at h
  split at h
  · split at h
    · rename_i hk ha hm; cases h; exact ⟨hm, ha, Or.inl ⟨rfl, hk⟩⟩
    · cases h
  · split at h
    · rename_i hk ha hm; cases h; exact ⟨hm, ha, Or.inr ⟨rfl, hk⟩⟩
    · cases h
  · cases h

/-- Where an address of a lookup is from: a server was asked for one of the names, and gave it. -/
def From (W : Nat → World) (fs : List Family) (ns : List Nat) (x : Family × Nat) : Prop :=
  x.1 ∈ fs ∧ ∃ k i v qs rs, (∀ q ∈ qs, q.name ∈ ns) ∧ W k i v qs = .result rs ∧
    ∃ r ∈ rs, r.address = some x.2 ∧ ((x.1 = .v4 ∧ r.kind = .v4) ∨ (x.1 = .v6 ∧ r.kind = .v6))

theorem lookup_from (W : Nat → World) (c : Config) (start : Nat → Nat) (fs : List Family) :
    ∀ (ns : List Nat) (k : Nat) (level : Nat → Level) (as : List (Family × Nat)),
      lookup W c start fs ns k level = .ok as → as ≠ [] ∧ ∀ x ∈ as, From W fs ns x
  | [], _, _, _, h => by cases h
  | n :: ns, k, level, as, h => by
    unfold lookup at h
    split at h
    · rename_i s he
      split at h
      · obtain ⟨h1, h2⟩ := lookup_from W c start fs ns (k + 1) s.level as h
        refine ⟨h1, ?_⟩
        intro x hx
        obtain ⟨a, k', i, v, qs, rs, hq, hw⟩ := h2 x hx
        exact ⟨a, k', i, v, qs, rs, fun q hm => List.mem_cons_of_mem _ (hq q hm), hw⟩
      · rename_i a as' hl
        have has : a :: as' = as := Except.ok.inj h
        rw [has] at hl
        refine ⟨by rw [← has]; simp, ?_⟩
        intro x hx
        rw [← hl] at hx
        obtain ⟨g, hg, hx⟩ := List.mem_flatMap.1 hx
        obtain ⟨r, hr, hra⟩ := List.mem_filterMap.1 hx
        have hc : c.count ≠ 0 := by
          intro h0
          unfold execute at he
          rw [if_pos h0] at he
          cases he
        have hgiven := (C287_answers_of_one_server_partial (W k) c (start k) _ level hc).1 g (by rw [he]; exact hg)
        obtain ⟨hq, v, hv⟩ := hgiven
        obtain ⟨m1, m2, m3⟩ := addressOf_spec fs r x.1 x.2 hra
        refine ⟨m1, k, g.1, v, g.2.1, g.2.2, ?_, hv, r, hr, m2, m3⟩
        intro q hqm
        have : q ∈ fs.map (fun f => (⟨n, kindOf f⟩ : Question)) := by
          rcases hq with hq | ⟨q', hq', hq⟩
          · rw [hq] at hqm; exact hqm
          · rw [hq] at hqm; rw [List.mem_singleton.1 hqm]; exact hq'
        obtain ⟨f, _, hf⟩ := List.mem_map.1 this
        rw [← hf]
        exact List.mem_cons_self
    · cases h

theorem addresses_spec (W : Nat → World) (c : Config) (start : Nat → Nat) (level : Nat → Level)
    (fs : List Family) (nh : Bool) (host : Host) (as : List (Family × Nat)) (hfs : fs ≠ [])
    (h : addresses W c start level fs nh host = .ok as) : as ≠ [] ∧ ∀ x ∈ as, x.1 ∈ fs := by
  unfold addresses at h
  split at h
  · have := Except.ok.inj h
    subst this
    refine ⟨by simpa using hfs, ?_⟩
    intro x hx
    obtain ⟨f, hf, he⟩ := List.mem_map.1 hx
    cases f <;> (subst he; exact hf)
  · split at h
    · rename_i a as' hl
      have := Except.ok.inj h
      subst this
      refine ⟨by simp, ?_⟩
      intro x hx
      rw [← hl] at hx
      simpa using (List.mem_filter.1 hx).2
    · split at h
      · cases h
      · obtain ⟨h1, h2⟩ := lookup_from W c start fs _ 0 level as h
        exact ⟨h1, fun x hx => (h2 x hx).1⟩

/-- What succeeded on the way to an address info. -/
theorem addressInfo_ok (W : Nat → World) (c : Config) (start : Nat → Nat) (level : Nat → Level) (noV6 : Bool)
    (host : Host) (port : Nat) (family : Option (Option Family)) (type : Option Ty) (protocol : Nat)
    (nh : Bool) (es : List Entry)
    (h : addressInfo W c start level noV6 host port family type protocol nh = .ok es) :
    ∃ fs ts ps as, families noV6 family = .ok fs ∧ types port type = .ok ts ∧ restrict protocol ts = .ok ps ∧
      addresses W c start level fs nh host = .ok as ∧
      es = as.flatMap (fun a => ps.map (fun p => ⟨a.1, p.1, p.2, a.2, port⟩)) := by
  unfold addressInfo at h
  split at h
  · cases h
  · rename_i fs hf
    split at h
    · cases h
    · rename_i ts ht
      split at h
      · cases h
      · rename_i ps hp
        split at h
        · cases h
        · rename_i as ha
          exact ⟨fs, ts, ps, as, hf, ht, hp, ha, (Except.ok.inj h).symm⟩

theorem types_pair (port : Nat) (type : Option Ty) (ts : List (Ty × Nat)) (h : types port type = .ok ts) :
    ts ≠ [] ∧ ∀ x ∈ ts, Pair x.1 x.2 ∧ (∀ t, type = some t → x.1 = t) := by
  unfold types at h
  split at h
  · split at h
    · have := Except.ok.inj h; subst this
      refine ⟨by simp, ?_⟩
      intro x hx
      simp only [List.mem_cons, List.not_mem_nil, or_false] at hx
      rcases hx with rfl | rfl
      · exact ⟨.dgram, by intro t ht; cases ht⟩
      · exact ⟨.stream, by intro t ht; cases ht⟩
    · have := Except.ok.inj h; subst this
      refine ⟨by simp, ?_⟩
      intro x hx
      simp only [List.mem_cons, List.not_mem_nil, or_false] at hx
      rcases hx with rfl | rfl | rfl
      · exact ⟨.dgram, by intro t ht; cases ht⟩
      · exact ⟨.stream, by intro t ht; cases ht⟩
      · exact ⟨.raw, by intro t ht; cases ht⟩
  · have := Except.ok.inj h; subst this
    refine ⟨by simp, ?_⟩
    intro x hx
    rw [List.mem_singleton.1 hx]
    exact ⟨.dgram, by intro t ht; cases ht; rfl⟩
  · have := Except.ok.inj h; subst this
    refine ⟨by simp, ?_⟩
    intro x hx
    rw [List.mem_singleton.1 hx]
    exact ⟨.stream, by intro t ht; cases ht; rfl⟩
  · cases h

theorem restrict_sub (protocol : Nat) (ts ps : List (Ty × Nat)) (hts : ts ≠ []) (h : restrict protocol ts = .ok ps) :
    ps ≠ [] ∧ ∀ x ∈ ps, x ∈ ts ∧ (protocol ≠ 0 → x.2 = protocol) := by
  unfold restrict at h
  split at h
  · split at h
    · rename_i x hf
      have := Except.ok.inj h; subst this
      refine ⟨by simp, ?_⟩
      intro y hy
      rw [List.mem_singleton.1 hy]
      exact ⟨List.mem_of_find?_eq_some hf, fun _ => by simpa using List.find?_some hf⟩
    · cases h
  · rename_i hp
    have := Except.ok.inj h; subst this
    exact ⟨hts, fun x hx => ⟨hx, fun h => absurd h hp⟩⟩

/-- **C289.** An address info which is returned is not empty, and each entry is of the family, the type,
the protocol and the port that were asked for, its protocol being that of its type. -/
theorem C289_as_asked (W : Nat → World) (c : Config) (start : Nat → Nat) (level : Nat → Level) (noV6 : Bool)
    (host : Host) (port : Nat) (family : Option (Option Family)) (type : Option Ty) (protocol : Nat)
    (nh : Bool) (es : List Entry)
    (h : addressInfo W c start level noV6 host port family type protocol nh = .ok es) :
    es ≠ [] ∧ ∀ e ∈ es, (∀ f, family = some (some f) → e.family = f) ∧ (∀ t, type = some t → e.type = t) ∧
      (protocol ≠ 0 → e.protocol = protocol) ∧ e.port = port ∧ Pair e.type e.protocol ∧
      (family = none → noV6 = true → e.family = .v4) := by
  obtain ⟨fs, ts, ps, as, hf, ht, hp, ha, hes⟩ := addressInfo_ok W c start level noV6 host port family type protocol nh es h
  obtain ⟨t1, t2⟩ := types_pair port type ts ht
  obtain ⟨p1, p2⟩ := restrict_sub protocol ts ps t1 hp
  have hfs : fs ≠ [] := by
    unfold families at hf
    (repeat' split at hf) <;> first | (have := Except.ok.inj hf; subst this; simp; done) | cases hf
  obtain ⟨a1, a2⟩ := addresses_spec W c start level fs nh host as hfs ha
  subst hes
  constructor
  · intro hnil
    cases as with
    | nil => exact a1 rfl
    | cons a as =>
      cases ps with
      | nil => exact p1 rfl
      | cons p ps => simp at hnil
  · intro e he
    obtain ⟨a, ham, he⟩ := List.mem_flatMap.1 he
    obtain ⟨p, hpm, he⟩ := List.mem_map.1 he
    subst he
    have hfa := a2 a ham
    obtain ⟨hpt, hpp⟩ := p2 p hpm
    refine ⟨?_, (t2 p hpt).2, hpp, rfl, (t2 p hpt).1, ?_⟩
    · intro f hff
      rw [hff] at hf
      have : fs = [f] := (Except.ok.inj hf).symm
      rw [this] at hfa
      exact List.mem_singleton.1 hfa
    · intro h1 h2
      rw [h1, h2] at hf
      have : fs = [.v4] := (Except.ok.inj hf).symm
      rw [this] at hfa
      exact List.mem_singleton.1 hfa

/-- **C289.** Families other than the two, protocols which are not of the type, and raw sockets are
refused. -/
theorem C289_refused (W : Nat → World) (c : Config) (start : Nat → Nat) (level : Nat → Level) (noV6 : Bool)
    (host : Host) (port : Nat) (family : Option (Option Family)) (type : Option Ty) (protocol : Nat) (nh : Bool)
    (h : family = some none ∨ type = some .raw ∨ (protocol ≠ 0 ∧ protocol ≠ 6 ∧ protocol ≠ 17) ∨
      (type = some .stream ∧ protocol = 17) ∨ (type = some .dgram ∧ protocol = 6)) :
    ∃ e, addressInfo W c start level noV6 host port family type protocol nh = .error e := by
  cases hr : addressInfo W c start level noV6 host port family type protocol nh with
  | error e => exact ⟨e, rfl⟩
  | ok es =>
    exfalso
    obtain ⟨hne, hall⟩ := C289_as_asked W c start level noV6 host port family type protocol nh es hr
    obtain ⟨fs, ts, ps, as, hf, ht, _⟩ := addressInfo_ok W c start level noV6 host port family type protocol nh es hr
    obtain ⟨e, he⟩ : ∃ e, e ∈ es := by
      cases es with
      | nil => exact absurd rfl hne
      | cons e es => exact ⟨e, List.mem_cons_self⟩
    obtain ⟨h1, h2, h3, h4, h5, h6⟩ := hall e he
    rcases h with h | h | ⟨a, b, d⟩ | ⟨a, b⟩ | ⟨a, b⟩
    · rw [h] at hf; cases hf
    · rw [h] at ht; cases ht
    · have := h3 a
      have hp : ∀ t p, Pair t p → p = 17 ∨ p = 6 ∨ p = 0 := by
        intro t p hx; cases hx <;> simp
      have := hp _ _ h5
      omega
    · have p := h3 (by rw [b]; decide)
      have q := h2 _ a
      rw [p, q, b] at h5
      cases h5
    · have p := h3 (by rw [b]; decide)
      have q := h2 _ a
      rw [p, q, b] at h5
      cases h5

/-- **C289.** A host that is numeric is never looked up, and one that has to be numeric neither: the
result does not depend on the name servers. -/
theorem C289_numeric_asks_nobody (W W' : Nat → World) (c c' : Config) (start start' : Nat → Nat)
    (level level' : Nat → Level) (fs : List Family) (nh : Bool) (as : List (Family × Nat)) (ns : List Nat)
    (h : nh = true ∨ ∃ a ∈ as, a.1 ∈ fs) :
    addresses W c start level fs nh (.host as ns) = addresses W' c' start' level' fs nh (.host as ns) := by
  unfold addresses
  dsimp only
  split
  · rfl
  · rename_i hl
    rcases h with h | ⟨a, ha, hf⟩
    · rw [if_pos h, if_pos h]
    · have : a ∈ as.filter (fun a => a.1 ∈ fs) := List.mem_filter.2 ⟨ha, by simpa using hf⟩
      rw [hl] at this
      cases this

example :
    addressInfo (fun _ _ _ _ => .timeout) ⟨.udp, 1, 1, fun _ => true⟩ (fun _ => 0) (fun _ => .maybe) false
      (.host [(.v4, 16909060)] []) 80 none none 6 false = .ok [⟨.v4, .stream, 6, 16909060, 80⟩] := by rfl

/-! ## C290: narrowing -/

/-- **C290, part.** Asking for datagrams or for streams gives the entries of that type of asking for any
type, in their order. -/
theorem C290_type_narrows_partial (W : Nat → World) (c : Config) (start : Nat → Nat) (level : Nat → Level)
    (noV6 : Bool) (host : Host) (port : Nat) (family : Option (Option Family)) (t : Ty) (nh : Bool)
    (ht : t ≠ .raw) (es : List Entry)
    (h : addressInfo W c start level noV6 host port family none 0 nh = .ok es) :
    addressInfo W c start level noV6 host port family (some t) 0 nh = .ok (es.filter (fun e => e.type = t)) := by
  obtain ⟨fs, ts, ps, as, hf, h2, h3, ha, hes⟩ := addressInfo_ok W c start level noV6 host port family none 0 nh es h
  have hps : ps = ts := by
    unfold restrict at h3
    rw [if_neg (by simp)] at h3
    exact (Except.ok.inj h3).symm
  have key : ∀ (as : List (Family × Nat)) (p : Ty × Nat),
      ps.filter (fun x => x.1 = t) = [p] →
      (as.flatMap (fun a => ps.map (fun p => (⟨a.1, p.1, p.2, a.2, port⟩ : Entry)))).filter (fun e => e.type = t) =
        as.flatMap (fun a => [p].map (fun p => ⟨a.1, p.1, p.2, a.2, port⟩)) := by
    intro as p hp
    induction as with
    | nil => rfl
    | cons a as ih =>
      rw [List.flatMap_cons, List.filter_append, ih, List.flatMap_cons]
      congr 1
      rw [List.filter_map, ← hp]
      rfl
  have hfin : ∀ p, types port (some t) = .ok [p] → ps.filter (fun x => x.1 = t) = [p] →
      addressInfo W c start level noV6 host port family (some t) 0 nh = .ok (es.filter (fun e => e.type = t)) := by
    intro p hp hpf
    unfold addressInfo
    rw [hf]
    dsimp only
    rw [hp]
    dsimp only
    have : restrict 0 [p] = .ok [p] := rfl
    rw [this]
    dsimp only
    rw [ha]
    dsimp only
    rw [hes, key as p hpf]
  rw [hps] at hfin
  unfold types at h2
  dsimp only at h2
  split at h2
  · have := Except.ok.inj h2; subst this
    cases t with
    | dgram => exact hfin _ rfl rfl
    | stream => exact hfin _ rfl rfl
    | raw => exact absurd rfl ht
  · have := Except.ok.inj h2; subst this
    cases t with
    | dgram => exact hfin _ rfl rfl
    | stream => exact hfin _ rfl rfl
    | raw => exact absurd rfl ht

/-- **C290, violated.** Without a port, asking for any type gives raw sockets too; asking for those is an
error. -/
theorem C290_raw_refused_violated (W : Nat → World) (c : Config) (start : Nat → Nat) (level : Nat → Level)
    (as : Nat) :
    addressInfo W c start level false (.host [(.v4, as)] []) 0 none none 0 false =
        .ok [⟨.v4, .dgram, 17, as, 0⟩, ⟨.v4, .stream, 6, as, 0⟩, ⟨.v4, .raw, 0, as, 0⟩] ∧
      addressInfo W c start level false (.host [(.v4, as)] []) 0 none (some .raw) 0 false = .error .type :=
  ⟨rfl, rfl⟩

/-! ## C291: whose addresses -/

/-- **C291, part.** Every address that was looked up is one a server gave in an answer to a question about
one of the candidate names, in a record of the type of its family, which was asked for. -/
theorem C291_addresses_are_answers_partial (W : Nat → World) (c : Config) (start : Nat → Nat)
    (fs : List Family) (ns : List Nat) (k : Nat) (level : Nat → Level) (as : List (Family × Nat))
    (h : lookup W c start fs ns k level = .ok as) : as ≠ [] ∧ ∀ x ∈ as, From W fs ns x :=
  lookup_from W c start fs ns k level as h

/-- **C291, part.** No address is left out: every address, of a family asked for, in what the query for the
first name yields is in the result. -/
theorem C291_all_addresses_partial (W : Nat → World) (c : Config) (start : Nat → Nat) (fs : List Family)
    (n : Nat) (ns : List Nat) (k : Nat) (level : Nat → Level) (s : S)
    (he : execute (W k) c (start k) (fs.map (fun f => ⟨n, kindOf f⟩)) level = (.returned, s))
    (x : Nat × List Question × List Record) (hx : x ∈ s.got) (r : Record) (hr : r ∈ x.2.2) (f : Family) (a : Nat)
    (hf : f ∈ fs) (hk : (f = .v4 ∧ r.kind = .v4) ∨ (f = .v6 ∧ r.kind = .v6)) (ha : r.address = some a) :
    ∃ as, lookup W c start fs (n :: ns) k level = .ok as ∧ (f, a) ∈ as := by
  have hra : addressOf fs r = some (f, a) := by
    unfold addressOf
    rcases hk with ⟨rfl, hk⟩ | ⟨rfl, hk⟩ <;> rw [hk, ha] <;> dsimp only <;> rw [if_pos hf]
  have hm : (f, a) ∈ s.got.flatMap (fun x => x.2.2.filterMap (addressOf fs)) :=
    List.mem_flatMap.2 ⟨x, hx, List.mem_filterMap.2 ⟨r, hr, hra⟩⟩
  rw [lookup.eq_def]
  dsimp only
  rw [he]
  dsimp only
  split
  · rename_i hl; rw [hl] at hm; cases hm
  · rename_i b bs hl
    exact ⟨b :: bs, rfl, by rw [← hl]; exact hm⟩

/-- **C291, violated.** An answer which holds an address of another name is taken: a server asked for `n`
that answers with a record of `m` determines the address of `n`. -/
theorem C291_other_name_taken_violated (W : Nat → World) (c : Config) (start : Nat → Nat) (level : Nat → Level)
    (n m a : Nat) (_hnm : n ≠ m) (hc : c.count = 1) (ha : 1 ≤ c.attempts) (hp : c.pref = .udp)
    (hw : W 0 0 .udp [⟨n, .v4⟩] = .result [⟨m, .v4, some a, none⟩]) :
    lookup W c start [.v4] [n] 0 level = .ok [(.v4, a)] := by
  have ho : order c (start 0) = [0] := by
    unfold order
    have : min c.attempts c.count = 1 := by omega
    rw [this, hc]
    simp [List.range_succ, Nat.mod_one]
  simp [lookup, execute, hc, ho, loop, hp, choose, ask, kindOf, hw, judge, addressOf]

/-! ## C292: candidate names -/

/-- **C292, part.** If the queries of the first names return no address, the result is that of the next
name, which is asked for with what was learnt of the servers. -/
theorem C292_next_name_partial (W : Nat → World) (c : Config) (start : Nat → Nat) (fs : List Family)
    (n : Nat) (ns : List Nat) (k : Nat) (level : Nat → Level) (s : S)
    (h : execute (W k) c (start k) (fs.map (fun f => ⟨n, kindOf f⟩)) level = (.returned, s))
    (hn : ∀ x ∈ s.got, ∀ r ∈ x.2.2, r.address = none ∨ ∀ f ∈ fs, r.kind ≠ kindOf f) :
    lookup W c start fs (n :: ns) k level = lookup W c start fs ns (k + 1) s.level := by
  rw [lookup.eq_def]
  dsimp only
  rw [h]
  dsimp only
  have : s.got.flatMap (fun x => x.2.2.filterMap (addressOf fs)) = [] := by
    rw [List.flatMap_eq_nil_iff]
    intro x hx
    rw [List.filterMap_eq_nil_iff]
    intro r hr
    cases ha : addressOf fs r with
    | none => rfl
    | some y =>
      obtain ⟨m1, m2, m3⟩ := addressOf_spec fs r y.1 y.2 ha
      rcases hn x hx r hr with h' | h'
      · rw [h'] at m2; cases m2
      · have := h' y.1 m1
        rcases m3 with ⟨e1, e2⟩ | ⟨e1, e2⟩
        · rw [e1, e2] at this; exact absurd rfl this
        · rw [e1, e2] at this; exact absurd rfl this
  rw [this]

/-- **C292, part.** When a name has an address the later ones are not asked for. -/
theorem C292_first_name_wins_partial (W : Nat → World) (c : Config) (start : Nat → Nat) (fs : List Family)
    (n : Nat) (ns ms : List Nat) (k : Nat) (level : Nat → Level) (as : List (Family × Nat))
    (h : lookup W c start fs [n] k level = .ok as) : lookup W c start fs (n :: ns) k level = .ok as ∧
      lookup W c start fs (n :: ms) k level = .ok as := by
  have key : ∀ ns, lookup W c start fs (n :: ns) k level = .ok as := by
    intro ns
    rw [lookup.eq_def] at h ⊢
    dsimp only at h ⊢
    split at h
    · rename_i s he
      split at h
      · cases h
      · exact h
    · cases h
  exact ⟨key ns, key ms⟩

/-- **C292, violated.** When the servers do not answer for the first candidate, which is the name in a
search domain, the lookup fails, whatever they would answer for the name itself. -/
theorem C292_silent_candidate_fails_lookup_violated (W : Nat → World) (c : Config) (start : Nat → Nat)
    (level : Nat → Level) (n : Nat) (ns : List Nat) (hc : c.count = 1) (ha : 1 ≤ c.attempts) (hp : c.pref = .udp)
    (hw : W 0 0 .udp [⟨n, .v4⟩] = .timeout) :
    lookup W c start [.v4] (n :: ns) 0 level = .error (.query (.failure false)) := by
  have ho : order c (start 0) = [0] := by
    unfold order
    have : min c.attempts c.count = 1 := by omega
    rw [this, hc]
    simp [List.range_succ, Nat.mod_one]
  simp [lookup, execute, hc, ho, loop, hp, choose, ask, kindOf, hw, judge]

example :
    let W : Nat → World := fun _ _ _ qs =>
      .result (if qs.any (fun q => q.name == 2) then [⟨2, .v4, some 9, none⟩, ⟨2, .v6, some 8, none⟩, ⟨2, .other, some 7, none⟩] else [])
    (match lookup W ⟨.udp, 1, 1, fun _ => true⟩ (fun _ => 0) [.v4] [1, 2, 3] 0 (fun _ => .maybe) with
      | .ok as => as
      | .error _ => []) = [(.v4, 9)] := by decide

/-! ## C293: names of addresses -/

/-- **C293, violated.** A name that is required, and cannot be read from the answer, is said to be the host
as it was given. -/
theorem C293_required_name_missing_violated (W : World) (c : Config) (start : Nat) (level : Nat → Level)
    (n : Nat) (k : Kind) (scope : Option Nat) (hc : c.count = 1) (ha : 1 ≤ c.attempts) (hp : c.pref = .udp)
    (hw : W 0 .udp [⟨n, .pointer⟩] = .result [⟨n, k, none, none⟩]) :
    nameInfo W c start level false true scope n = .ok .given := by
  have ho : order c start = [0] := by
    unfold order
    have : min c.attempts c.count = 1 := by omega
    rw [this, hc]
    simp [List.range_succ, Nat.mod_one]
  simp [nameInfo, execute, hc, ho, loop, hp, choose, ask, hw, judge]

/-- **C293, violated.** The first record of an answer is read as a pointer, of whatever type it is; a
pointer behind it is not looked at. -/
theorem C293_first_record_taken_violated (W : World) (c : Config) (start : Nat) (level : Nat → Level)
    (n m p : Nat) (required : Bool) (scope : Option Nat) (hc : c.count = 1) (ha : 1 ≤ c.attempts) (hp : c.pref = .udp)
    (hw : W 0 .udp [⟨n, .pointer⟩] = .result [⟨n, .other, none, some m⟩, ⟨n, .pointer, none, some p⟩]) :
    nameInfo W c start level false required scope n = .ok (.found m) := by
  have ho : order c start = [0] := by
    unfold order
    have : min c.attempts c.count = 1 := by omega
    rw [this, hc]
    simp [List.range_succ, Nat.mod_one]
  simp [nameInfo, execute, hc, ho, loop, hp, choose, ask, hw, judge]

/-- **C293, violated.** A name that is not required is one all the same when the servers do not answer: an
error is raised instead of giving the address. -/
theorem C293_silent_server_fails_violated (W : World) (c : Config) (start : Nat) (level : Nat → Level)
    (n : Nat) (scope : Option Nat) (hc : c.count = 1) (ha : 1 ≤ c.attempts) (hp : c.pref = .udp)
    (hw : W 0 .udp [⟨n, .pointer⟩] = .timeout) :
    nameInfo W c start level false false scope n = .error (.query (.failure false)) := by
  have ho : order c start = [0] := by
    unfold order
    have : min c.attempts c.count = 1 := by omega
    rw [this, hc]
    simp [List.range_succ, Nat.mod_one]
  simp [nameInfo, execute, hc, ho, loop, hp, choose, ask, hw, judge]

/-- **C293, part.** A name that is found is the one of the first record of an answer to the question for
it. -/
theorem C293_found_name_is_answer_partial (W : World) (c : Config) (start : Nat) (level : Nat → Level)
    (nh required : Bool) (scope : Option Nat) (n m : Nat)
    (h : nameInfo W c start level nh required scope n = .ok (.found m)) :
    nh = false ∧ ∃ i v r rs, W i v [⟨n, .pointer⟩] = .result (r :: rs) ∧ r.pointer = some m := by
  unfold nameInfo at h
  split at h
  · cases h
  · rename_i hnh
    refine ⟨by simpa using hnh, ?_⟩
    split at h
    · rename_i s he
      split at h
      · rename_i r hr
        split at h
        · rename_i p hp
          have : p = m := by
            have := Except.ok.inj h
            cases this
            rfl
          subst this
          obtain ⟨x, hx, hxr⟩ := List.exists_of_findSome?_eq_some hr
          have hc : c.count ≠ 0 := by
            intro h0
            unfold execute at he
            rw [if_pos h0] at he
            cases he
          obtain ⟨hq, v, hv⟩ := (C287_answers_of_one_server_partial W c start [⟨n, .pointer⟩] level hc).1 x
            (by rw [he]; exact hx)
          have hqs : x.2.1 = [⟨n, .pointer⟩] := by
            rcases hq with hq | ⟨q, hq, he'⟩
            · exact hq
            · rw [he', List.mem_singleton.1 hq]
          rw [hqs] at hv
          obtain ⟨rs, hrs⟩ : ∃ rs, x.2.2 = r :: rs := by
            cases hxx : x.2.2 with
            | nil => rw [hxx] at hxr; cases hxr
            | cons y ys => rw [hxx] at hxr; cases hxr; exact ⟨ys, rfl⟩
          exact ⟨x.1, v, r, rs, by rw [hv, hrs], hp⟩
        · cases h
      · split at h <;> cases h
    · cases h

/-- **C293, part.** When all answers are empty, a required name is an error, and otherwise the address
with its scope is given; it is given, without asking, when numbers are wanted. -/
theorem C293_no_answers_partial (W : World) (c : Config) (start : Nat) (level : Nat → Level)
    (required : Bool) (scope : Option Nat) (n : Nat)
    (hr : (execute W c start [⟨n, .pointer⟩] level).1 = .returned)
    (he : ∀ i v, W i v [⟨n, .pointer⟩] = .result [] ∨ ∀ rs, W i v [⟨n, .pointer⟩] ≠ .result rs) :
    nameInfo W c start level false required scope n =
        (if required then .error .noName else .ok (.address scope)) ∧
      nameInfo W c start level true required scope n = .ok (.address scope) := by
  refine ⟨?_, rfl⟩
  have hc : c.count ≠ 0 := by
    intro h0
    unfold execute at hr
    rw [if_pos h0] at hr
    cases hr
  have hg := (C287_answers_of_one_server_partial W c start [⟨n, .pointer⟩] level hc).1
  unfold nameInfo
  rw [if_neg (by simp)]
  cases hx : execute W c start [⟨n, .pointer⟩] level with
  | mk e s =>
    rw [hx] at hr hg
    have hr : e = .returned := hr
    subst hr
    dsimp only
    have : s.got.findSome? (fun x => x.2.2.head?) = none := by
      rw [List.findSome?_eq_none_iff]
      intro x hxm
      obtain ⟨hq, v, hv⟩ := hg x hxm
      have hqs : x.2.1 = [⟨n, .pointer⟩] := by
        rcases hq with hq | ⟨q, hq, he'⟩
        · exact hq
        · rw [he', List.mem_singleton.1 hq]
      rw [hqs] at hv
      rcases he x.1 v with h | h
      · rw [Out.result.inj (hv.symm.trans h)]; rfl
      · exact absurd hv (h _)
    rw [this]

example :
    let W : World := fun _ _ _ => .result [⟨3, .pointer, none, some 44⟩]
    nameInfo W ⟨.tcp, 1, 1, fun _ => false⟩ 0 (fun _ => .maybe) false true (some 2) 3 = .ok (.found 44) := by rfl

end Verif.Resolve
