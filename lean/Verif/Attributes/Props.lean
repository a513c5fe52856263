import Verif.Attributes.Model

/-!
# Extra infos of transports, cached properties and proxies: theorems
-/

namespace Verif.Attributes

theorem look_put {K V : Type} [DecidableEq K] (d : Dict K V) (k : K) (v : V) (k' : K) :
    look (put d k v) k' = if k = k' then some v else look d k' := by
  induction d with
  | nil => simp [put, look]
  | cons e d ih =>
    obtain ⟨a, b⟩ := e
    unfold put
    by_cases h : a = k
    · subst h
      rw [if_pos rfl]
      by_cases h' : a = k' <;> simp [look, h']
    · rw [if_neg h]
      by_cases h' : a = k'
      · subst h'; simp [look, Ne.symm h]
      · simp [look, h', ih]

theorem look_remove {K V : Type} [DecidableEq K] (d : Dict K V) (k k' : K) :
    look (remove d k) k' = if k = k' then none else look d k' := by
  unfold remove
  induction d with
  | nil => simp [look]
  | cons e d ih =>
    obtain ⟨a, b⟩ := e
    by_cases h : a = k
    · subst h
      rw [List.filter_cons_of_neg (by simp), ih]
      by_cases h' : a = k' <;> simp [look, h']
    · rw [List.filter_cons_of_pos (by simpa using h)]
      by_cases h' : a = k'
      · subst h'; simp [look, Ne.symm h]
      · rw [look, look, if_neg h', if_neg h', ih]

theorem put_ne {K V : Type} [DecidableEq K] (d : Dict K V) (k : K) (v : V) : put d k v ≠ [] := by
  cases d with
  | nil => simp [put]
  | cons e d => obtain ⟨a, b⟩ := e; unfold put; split <;> simp

/-! ## Extra infos -/

/-- What was set of `name` the last. -/
def lastSet (name : Name) : List (Name × Option Nat) → Option (Option Nat)
  | [] => none
  | (n, v) :: l =>
    match lastSet name l with
    | some v' => some v'
    | none => if n = name then some v else none

/-- Infos set one after the other, beginning with `None`. -/
def setAll (l : List (Name × Option Nat)) : Extra := l.foldl (fun e p => setInfo e p.1 p.2) none

theorem setAll_look (l : List (Name × Option Nat)) :
    (l = [] ∧ setAll l = none) ∨ (l ≠ [] ∧ ∃ d, setAll l = some d ∧ ∀ name, look d name = lastSet name l) := by
  have key : ∀ (l : List (Name × Option Nat)) (d : Dict Name (Option Nat)),
      ∃ d', l.foldl (fun e p => setInfo e p.1 p.2) (some d) = some d' ∧
        ∀ name, look d' name = match lastSet name l with | some v => some v | none => look d name := by
    intro l
    induction l with
    | nil => intro d; exact ⟨d, rfl, fun _ => rfl⟩
    | cons p l ih =>
      intro d
      obtain ⟨n, v⟩ := p
      obtain ⟨d', h1, h2⟩ := ih (put d n v)
      refine ⟨d', h1, ?_⟩
      intro name
      rw [h2, look_put, lastSet]
      cases lastSet name l with
      | some v' => rfl
      | none => by_cases h : n = name <;> simp [h]
  cases l with
  | nil => left; exact ⟨rfl, rfl⟩
  | cons p l =>
    right
    obtain ⟨n, v⟩ := p
    obtain ⟨d', h1, h2⟩ := key l (put [] n v)
    refine ⟨by simp, d', h1, ?_⟩
    intro name
    rw [h2, look_put, lastSet]
    cases lastSet name l with
    | some v' => rfl
    | none => by_cases h : n = name <;> simp [h, look]

/-- The second name under which an info is looked for. -/
inductive Alias : Name → Name → Prop
  | context : Alias .sslContext .sslContext
  | socket : Alias .socket .sock
  | certification : Alias .peerCertification .peercert
  | socketName : Alias .socketName .sockname
  | peerName : Alias .peerName .peername

theorem alias_iff (a b : Name) : Alias a b ↔ alternative a = some b := by
  constructor
  · rintro ⟨⟩ <;> rfl
  · intro h
    cases a <;> simp [alternative] at h <;> subst h <;> constructor

/-- An info as it was set: under the name, or else under its second name. -/
inductive Info (l : List (Name × Option Nat)) (name : Name) : Option Nat → Prop
  | own (v : Option Nat) : lastSet name l = some v → Info l name v
  | second (b : Name) (v : Option Nat) : lastSet name l = none → Alias name b → lastSet b l = some v → Info l name v

/-- C317: an info which was set is what was set the last. -/
theorem C317_set (l : List (Name × Option Nat)) (name : Name) (default v : Option Nat) (h : Info l name v) :
    getInfo (setAll l) name default = v := by
  rcases setAll_look l with ⟨rfl, _⟩ | ⟨_, d, h1, h2⟩
  · cases h with
    | own _ h => cases h
    | second _ _ _ _ h => cases h
  · rw [h1]
    unfold getInfo
    cases h with
    | own _ h => simp [h2, h]
    | second b _ hn ha hb =>
      simp [h2, hn, (alias_iff _ _).1 ha, hb]

/-- C317: the default is given for others, once any info is set. -/
theorem C317_default_partial (l : List (Name × Option Nat)) (name : Name) (default : Option Nat) (hl : l ≠ [])
    (h : ∀ v, ¬Info l name v) : getInfo (setAll l) name default = default := by
  rcases setAll_look l with ⟨h0, _⟩ | ⟨_, d, h1, h2⟩
  · exact absurd h0 hl
  · rw [h1]
    unfold getInfo
    dsimp only
    have ho : lastSet name l = none := by
      cases hv : lastSet name l with
      | none => rfl
      | some v => exact absurd (Info.own v hv) (h v)
    rw [h2, ho]
    cases ha : alternative name with
    | none => rfl
    | some b =>
      dsimp only
      rw [h2]
      cases hb : lastSet b l with
      | none => rfl
      | some v => exact absurd (Info.second b v ho ((alias_iff _ _).2 ha) hb) (h v)

/-- C317: but while none is set, `None` is given, whatever the default is. -/
theorem C317_default_violated (name : Name) (n : Nat) : getInfo (setAll []) name (some n) ≠ some n := by
  simp [setAll, getInfo]

example : getInfo (setAll [(.peername, some 3), (.sock, some 4), (.peername, some 5)]) .peerName none = some 5 := by decide

/-- C318: whether an info is there is told right, and is the same both ways. -/
theorem C318_present (l : List (Name × Option Nat)) (name : Name) :
    (hasInfo (setAll l) name = true ↔ ∃ v, Info l name v) ∧ (getHas (setAll l) name).2 = hasInfo (setAll l) name ∧
      ∀ v, Info l name v → (getHas (setAll l) name).1 = v := by
  rcases setAll_look l with ⟨rfl, h⟩ | ⟨_, d, h1, h2⟩
  · rw [h]
    have hno : ∀ v, ¬Info [] name v := by
      intro v hi
      cases hi with
      | own _ h => cases h
      | second _ _ _ _ h => cases h
    refine ⟨⟨fun h => by simp [hasInfo] at h, fun ⟨v, h⟩ => absurd h (hno v)⟩, rfl, fun v h => absurd h (hno v)⟩
  · rw [h1]
    unfold hasInfo getHas
    dsimp only
    rw [h2]
    cases ho : lastSet name l with
    | some v =>
      refine ⟨⟨fun _ => ⟨v, .own v ho⟩, fun _ => by simp⟩, by simp, ?_⟩
      intro v' hi
      cases hi with
      | own _ h => rw [ho] at h; cases h; rfl
      | second _ _ hn _ _ => rw [ho] at hn; cases hn
    | none =>
      cases ha : alternative name with
      | none =>
        have hno : ∀ v, ¬Info l name v := by
          intro v hi
          cases hi with
          | own _ h => rw [ho] at h; cases h
          | second b _ _ hal _ => rw [(alias_iff _ _).1 hal] at ha; cases ha
        refine ⟨⟨fun h => by simp at h, fun ⟨v, h⟩ => absurd h (hno v)⟩, by simp, fun v h => absurd h (hno v)⟩
      | some b =>
        dsimp only
        rw [h2]
        cases hb : lastSet b l with
        | none =>
          have hno : ∀ v, ¬Info l name v := by
            intro v hi
            cases hi with
            | own _ h => rw [ho] at h; cases h
            | second b' _ _ hal h =>
              rw [(alias_iff _ _).1 hal] at ha; cases ha
              rw [hb] at h; cases h
          refine ⟨⟨fun h => by simp at h, fun ⟨v, h⟩ => absurd h (hno v)⟩, by simp, fun v h => absurd h (hno v)⟩
        | some v =>
          refine ⟨⟨fun _ => ⟨v, .second b v ho ((alias_iff _ _).2 ha) hb⟩, fun _ => by simp⟩, by simp, ?_⟩
          intro v' hi
          cases hi with
          | own _ h => rw [ho] at h; cases h
          | second b' _ _ hal h =>
            rw [(alias_iff _ _).1 hal] at ha; cases ha
            rw [hb] at h; cases h; rfl

/-- C319: an info set under the second name is found under the first. -/
theorem C319_second_name_partial (l : List (Name × Option Nat)) (a b : Name) (v : Option Nat) (ha : Alias a b)
    (hno : ∀ p ∈ l, p.1 ≠ a) (hb : lastSet b l = some v) : getInfo (setAll l) a none = v ∧ hasInfo (setAll l) a = true := by
  have hn : lastSet a l = none := by
    clear hb
    induction l with
    | nil => rfl
    | cons p l ih =>
      obtain ⟨n, x⟩ := p
      have h1 : n ≠ a := hno (n, x) List.mem_cons_self
      simp [lastSet, ih fun q hq => hno q (List.mem_cons_of_mem _ hq), h1]
  have hi : Info l a v := .second b v hn ha hb
  exact ⟨C317_set l a none v hi, (C318_present l a).1.2 ⟨v, hi⟩⟩

/-- C319: but one set under the first name, as transports do, is not found under the second. -/
theorem C319_first_name_violated (a b : Name) (v default : Option Nat) (ha : Alias a b) (hne : a ≠ b) :
    getInfo (setAll [(a, v)]) b default = default ∧ hasInfo (setAll [(a, v)]) b = false := by
  have hb : alternative b = none := by cases ha <;> first | rfl | exact absurd rfl hne
  simp [setAll, setInfo, getInfo, hasInfo, put, look, hne, hb]

example : Alias .peerName .peername ∧ Name.peerName ≠ .peername := ⟨.peerName, by decide⟩

/-! ## Cached properties -/

/-- The getter gives no `...`, nor do the setters. -/
def Usual (fget : Nat → Nat → Value) (as : List Access) : Prop :=
  (∀ n i, fget n i ≠ .ellipsis) ∧ ∀ n, Access.set n .ellipsis ∉ as

/-- What the cache has for a name. -/
def cached (o : Instance) (name : Nat) : Option Value := look (o.cache.getD []) name

theorem cached_get (fget : Nat → Nat → Value) (o : Instance) (name : Nat) :
    (∃ n, cached o name = some (.object n) ∧ (getCached fget o name).2 = .object n ∧
        (getCached fget o name).1.calls = o.calls ∧ ∀ m, cached (getCached fget o name).1 m = cached o m) ∨
      ((∀ n, cached o name ≠ some (.object n)) ∧ (getCached fget o name).2 = fget name (o.calls name) ∧
        (∀ m, (getCached fget o name).1.calls m = if m = name then o.calls m + 1 else o.calls m) ∧
        ∀ m, cached (getCached fget o name).1 m = if name = m then some (fget name (o.calls name)) else cached o m) := by
  unfold getCached cached
  dsimp only
  split
  · rename_i n h
    left
    exact ⟨n, h, rfl, rfl, fun m => rfl⟩
  · rename_i h
    right
    refine ⟨fun n hn => h n hn, rfl, fun m => rfl, ?_⟩
    intro m
    simp [look_put]

theorem access_inv (fget : Nat → Nat → Value) (name : Nat) (as : List Access) (o : Instance) (hu : Usual fget as)
    (hc : Access.clear ∉ as) (h : o.calls name = 0 ∨ (o.calls name = 1 ∧ ∃ n, cached o name = some (.object n))) :
    (accesses fget o as).calls name ≤ 1 := by
  induction as generalizing o with
  | nil => rcases h with h | ⟨h, _⟩ <;> simp [accesses, h]
  | cons a as ih =>
    have hu' : Usual fget as := ⟨hu.1, fun n hm => hu.2 n (List.mem_cons_of_mem _ hm)⟩
    have hc' : Access.clear ∉ as := fun hm => hc (List.mem_cons_of_mem _ hm)
    apply ih (access fget o a).1 hu' hc'
    cases a with
    | get m =>
      show ((getCached fget o m).1.calls name = 0 ∨ _)
      change _ ∨ ((getCached fget o m).1.calls name = 1 ∧ ∃ n, cached (getCached fget o m).1 name = some (.object n))
      rcases cached_get fget o m with ⟨n, h1, _, h3, h4⟩ | ⟨h1, _, h3, h4⟩
      · rw [h3, h4]; exact h
      · rw [h3, h4]
        by_cases hm : name = m
        · subst hm
          right
          rcases h with h | ⟨_, n, h⟩
          · refine ⟨by simp [h], ?_⟩
            rw [if_pos rfl]
            cases hf : fget name (o.calls name) with
            | ellipsis => exact absurd hf (hu.1 _ _)
            | object n => exact ⟨n, rfl⟩
          · exact absurd h (h1 n)
        · rw [if_neg hm, if_neg (Ne.symm hm)]; exact h
    | set m v =>
      have hv : v ≠ .ellipsis := fun e => hu.2 m (by rw [← e]; exact List.mem_cons_self)
      show (o.calls name = 0 ∨ (o.calls name = 1 ∧ ∃ n, cached (setCached o m v) name = some (.object n)))
      rcases h with h | ⟨h, n, hn⟩
      · exact Or.inl h
      · refine Or.inr ⟨h, ?_⟩
        unfold cached setCached
        dsimp only
        rw [Option.getD_some, look_put]
        by_cases hm : m = name
        · rw [if_pos hm]
          cases v with
          | ellipsis => exact absurd rfl hv
          | object k => exact ⟨k, rfl⟩
        · rw [if_neg hm]; exact ⟨n, hn⟩
    | refuse m => exact h
    | clear => exact absurd List.mem_cons_self hc

/-- C320: the getter of a property is called at most once while the cache is not dropped. -/
theorem C320_once_partial (fget : Nat → Nat → Value) (as : List Access) (name : Nat) (hu : Usual fget as)
    (hc : Access.clear ∉ as) : (accesses fget {} as).calls name ≤ 1 :=
  access_inv fget name as {} hu hc (Or.inl rfl)

theorem get_calls (fget : Nat → Nat → Value) (name k : Nat) (h : ∀ i, fget name i = .ellipsis) (o : Instance)
    (ho : ∀ n, cached o name ≠ some (.object n)) :
    (accesses fget o (List.replicate k (.get name))).calls name = o.calls name + k := by
  induction k generalizing o with
  | zero => rfl
  | succ k ih =>
    rw [List.replicate_succ]
    show (accesses fget (getCached fget o name).1 _).calls name = _
    rcases cached_get fget o name with ⟨n, h1, _⟩ | ⟨_, _, h3, h4⟩
    · exact absurd h1 (ho n)
    · rw [ih _ (by intro n; rw [h4, if_pos rfl, h]; simp), h3, if_pos rfl]
      omega

/-- C320: but a getter which gives `...` is called at every access. -/
theorem C320_ellipsis_violated (fget : Nat → Nat → Value) (name k : Nat) (h : ∀ i, fget name i = .ellipsis) :
    (accesses fget {} (List.replicate k (.get name))).calls name = k := by
  have := get_calls fget name k h {} (by simp [cached, look])
  rw [this]
  exact Nat.zero_add k

theorem kept (fget : Nat → Nat → Value) (name n : Nat) (as : List Access) (o : Instance) (hc : Access.clear ∉ as)
    (hs : ∀ v, Access.set name v ∉ as) (h : cached o name = some (.object n)) :
    cached (accesses fget o as) name = some (.object n) := by
  induction as generalizing o with
  | nil => exact h
  | cons a as ih =>
    apply ih (access fget o a).1 (fun hm => hc (List.mem_cons_of_mem _ hm)) (fun v hm => hs v (List.mem_cons_of_mem _ hm))
    cases a with
    | get m =>
      change cached (getCached fget o m).1 name = _
      rcases cached_get fget o m with ⟨k, h1, _, h3, h4⟩ | ⟨h1, _, h3, h4⟩
      · rw [h4, h]
      · rw [h4]
        by_cases hm : m = name
        · subst hm; exact absurd h (h1 n)
        · rw [if_neg hm, h]
    | set m v =>
      change cached (setCached o m v) name = _
      unfold cached setCached
      dsimp only
      rw [Option.getD_some, look_put]
      by_cases hm : m = name
      · subst hm; exact absurd List.mem_cons_self (hs v)
      · rw [if_neg hm]; exact h
    | refuse m => exact h
    | clear => exact absurd List.mem_cons_self hc

/-- C321: what a property gave it gives until it is set or the cache is dropped. -/
theorem C321_got (fget : Nat → Nat → Value) (o : Instance) (name n : Nat) (as : List Access) (hc : Access.clear ∉ as)
    (hs : ∀ v, Access.set name v ∉ as) (h : (getCached fget o name).2 = .object n) :
    (getCached fget (accesses fget (getCached fget o name).1 as) name).2 = .object n := by
  have hk : cached (getCached fget o name).1 name = some (.object n) := by
    rcases cached_get fget o name with ⟨k, h1, h2, _, h4⟩ | ⟨_, h2, _, h4⟩
    · rw [h4, h1, ← h2, h]
    · rw [h4, if_pos rfl, ← h2, h]
  have hk' := kept fget name n as _ hc hs hk
  rcases cached_get fget (accesses fget (getCached fget o name).1 as) name with ⟨k, h1, h2, _⟩ | ⟨h1, _⟩
  · rw [hk'] at h1; cases h1; exact h2
  · exact absurd hk' (h1 n)

/-- C321: and what was set is given. -/
theorem C321_set (fget : Nat → Nat → Value) (o : Instance) (name n : Nat) (as : List Access) (hc : Access.clear ∉ as)
    (hs : ∀ v, Access.set name v ∉ as) :
    (getCached fget (accesses fget o (.set name (.object n) :: as)) name).2 = .object n := by
  have hk : cached (setCached o name (.object n)) name = some (.object n) := by
    simp [cached, setCached, look_put]
  have hk' := kept fget name n as _ hc hs hk
  change (getCached fget (accesses fget (setCached o name (.object n)) as) name).2 = _
  rcases cached_get fget (accesses fget (setCached o name (.object n)) as) name with ⟨k, h1, h2, _⟩ | ⟨h1, _⟩
  · rw [hk'] at h1; cases h1; exact h2
  · exact absurd hk' (h1 n)

example : (accesses (fun n i => .object (10 * n + i)) {} [.get 1, .get 1, .get 2, .set 1 (.object 7), .get 1]).calls 1 = 1 := by decide

end Verif.Attributes
