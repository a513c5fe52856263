import Verif.UrlText.Tail

/-! C231: the query and the fragment of a url. -/
namespace Verif.UrlText

open Verif.Url (Query)

variable {K : Classes}

/-- The specification: a text before and after the first `x`. -/
def cut (x : Char) : Text → Text × Option Text
  | [] => ([], none)
  | c :: t => if c = x then ([], some t) else (c :: (cut x t).1, (cut x t).2)

theorem cut_append {x : Char} : ∀ {a : Text} (b : Text), x ∉ a → cut x (a ++ b) = (a ++ (cut x b).1, (cut x b).2) := by
  intro a
  induction a with
  | nil => intro b _; rfl
  | cons c a ih =>
    intro b h
    have hc : c ≠ x := fun e => h (e ▸ List.mem_cons_self)
    simp only [List.cons_append, cut, hc, if_false, ih b (fun h' => h (List.mem_cons_of_mem _ h'))]

theorem cut_tail {a : Text} {q f : Option Text} (ha : '#' ∉ a) (ha' : '?' ∉ a) (hq : '#' ∉ q.getD []) :
    (cut '#' (a ++ tailOf q f)).2 = f ∧ (cut '?' (cut '#' (a ++ tailOf q f)).1).2 = q := by
  have h1 : cut '#' (a ++ tailOf q f) = (a ++ tailOf q none, f) := by
    rw [cut_append _ ha]
    cases q with
    | none => cases f <;> simp [tailOf, cut]
    | some q =>
      have : cut '#' (tailOf (some q) f) = ('?' :: q, f) := by
        show cut '#' (('?' :: q) ++ (f.map ('#' :: ·)).getD []) = _
        rw [cut_append _ (by
          intro h
          rcases List.mem_cons.1 h with h | h
          · exact absurd h (by decide)
          · exact hq h)]
        cases f <;> simp [cut]
      rw [this]
      simp [tailOf]
  rw [h1]
  refine ⟨rfl, ?_⟩
  show (cut '?' (a ++ tailOf q none)).2 = q
  rw [cut_append _ ha']
  cases q with
  | none => rfl
  | some q => simp [tailOf, cut]

theorem path_alphabet {c : Char} (h : pathRp.alphabet c = false) (h' : schemeRp.alphabet c = false) (ha : (authorityRp K).alphabet c = false) :
    (schemeRp.seq ((authorityRp K).seq pathRp)).alphabet c = false := by
  simp only [Re.alphabet, h, h', ha, Bool.or_self]

theorem front_hash (hK : K.Fine) : (schemeRp.seq ((authorityRp K).seq pathRp)).alphabet '#' = false :=
  path_alphabet (by decide) (by decide)
    (not_authority (hK.digit _ (by decide)) (by decide +kernel) (by decide) (by decide))

theorem front_mark (hK : K.Fine) : (schemeRp.seq ((authorityRp K).seq pathRp)).alphabet '?' = false :=
  path_alphabet (by decide) (by decide)
    (not_authority (hK.digit _ (by decide)) (by decide +kernel) (by decide) (by decide))

theorem host_groups : (hostRp K).groups = [4, 5, 6, 7, 8, 9, 10, 11, 12] := rfl

theorem front_groups : (schemeRp.seq ((authorityRp K).seq pathRp)).groups = [1, 2, 3, 4, 5, 6, 7, 8, 9, 10, 11, 12, 13, 14] := rfl

/-- What the groups come to. -/
theorem ofGroups_cases {g : List (Nat × Text)} {u : Url} (h : ofGroups g = some u) :
    u.scheme = look g 1 ∧ (u.user = if (look g 2).isSome ∨ (look g 3).isSome then some (look g 2, look g 3) else none) ∧
      u.host = createHost g ∧ u.port = (look g 13).map number ∧
      some u.path = pathOf (look g 14) ∧
      (match look g 15 with
        | none => u.query = none
        | some q => ∃ d, Url.parseQuery (some q) false = some d ∧ u.query = some d) ∧ u.fragment = look g 16 := by
  unfold ofGroups at h
  split at h
  · rename_i path query hp hq
    cases Option.some.inj h
    refine ⟨rfl, rfl, rfl, rfl, ?_, ?_, rfl⟩
    · exact hp.symm
    · change Url.parseQuery (look g 15) false = some query at hq
      cases h15 : look g 15 with
      | none => show (if (look g 15).isSome = true then some query else none) = none; rw [h15]; rfl
      | some q =>
        refine ⟨query, by rw [← h15]; exact hq, ?_⟩
        show (if (look g 15).isSome = true then some query else none) = _
        rw [h15]; rfl
  · cases h

/-- C231: the fragment of a url is what is after the first `#`, the query what is between the first `?` before it and it. -/
theorem C231_query_and_fragment (hK : K.Fine) {v : Text} {u : Url} (h : read K v = some u) :
    u.fragment = (if (cut '#' v).2 = some [] then none else (cut '#' v).2) ∧
      match (cut '?' (cut '#' v).1).2 with
      | none => u.query = none
      | some q => ∃ d, Url.parseQuery (some q) false = some d ∧ u.query = some d := by
  obtain ⟨g, hg, hu⟩ := Option.bind_eq_some_iff.1 h
  obtain ⟨t, q, f, ht, e, hq, hg⟩ := found hg
  obtain ⟨w, hw⟩ := eats _ _ _ ht
  have hh : '#' ∉ w := fun h => by have := hw.chars _ h; rw [front_hash hK] at this; cases this
  have hm : '?' ∉ w := fun h => by have := hw.chars _ h; rw [front_mark hK] at this; cases this
  have hv : v = w ++ tailOf q f := by rw [← e]; exact hw.rest
  obtain ⟨h1, h2⟩ := cut_tail (f := f) hh hm hq
  have h16 : look t.caps 16 = none := look_sem ht (by rw [front_groups]; decide)
  have h15 : look t.caps 15 = none := look_sem ht (by rw [front_groups]; decide)
  obtain ⟨_, _, _, _, _, hq', hf'⟩ := ofGroups_cases hu
  rw [hv, h1, h2]
  have e16 : look g 16 = if f = some [] then none else f := by
    rw [hg]
    rcases f with _ | _ | ⟨c, f⟩ <;> cases q <;> simp [tailCaps, look_cons_self, look_cons_ne, h16]
  have e15 : look g 15 = q := by
    rw [hg]
    rcases f with _ | _ | ⟨c, f⟩ <;> cases q <;> simp [tailCaps, look_cons_self, look_cons_ne, h15]
  rw [e15] at hq'
  exact ⟨by rw [hf', e16], hq'⟩

example : (read ascii "https://h.com/a?b=c?d#e?f#g".toList).map (·.fragment) = some (some "e?f#g".toList) := by decide +kernel

example : (read ascii "/a#".toList).map (·.fragment) = some none := by decide +kernel

/-! ### The end changes nothing before it -/

/-- What reading a query and a fragment adds to a url. -/
def Url.ends (u : Url) (q f : Option Text) : Url :=
  { u with query := q.bind fun q => Url.parseQuery (some q) false, fragment := if f = some [] then none else f }

theorem parseItems_some (l : List Text) : ∀ d, ∃ d', Url.parseItems false l d = some d' := by
  induction l with
  | nil => intro d; exact ⟨d, rfl⟩
  | cons a l ih =>
    intro d
    simp only [Url.parseItems]
    split
    · exact ih d
    · exact ih _

theorem seqs_proper : ∀ l : List Char, (seqs (l.map char)).Proper
  | [] => trivial
  | [_] => trivial
  | _ :: b :: l => ⟨trivial, seqs_proper (b :: l)⟩

theorem lit_proper (t : String) : (lit t).Proper := seqs_proper _

theorem times_proper {r : Re} (h : r.Proper) : ∀ n, (r.times n).Proper
  | 0 => trivial
  | n + 1 => ⟨h, times_proper h n⟩

theorem upTo_proper {r : Re} (h : r.Proper) : ∀ n, (r.upTo n).Proper
  | 0 => trivial
  | n + 1 => ⟨⟨h, upTo_proper h n⟩, trivial⟩

theorem between_proper {r : Re} (h : r.Proper) (m n : Nat) : (r.between m n).Proper := ⟨times_proper h m, upTo_proper h _⟩

theorem char_proper (c : Char) : (char c).Proper := trivial
theorem dig_proper : (dig K).Proper := trivial
theorem range_proper (a b : Char) : (range a b).Proper := trivial

theorem byteMid_proper : (byteMid K).Proper :=
  ⟨⟨⟨trivial, trivial⟩, between_proper dig_proper _ _⟩, ⟨trivial, trivial, trivial⟩, lit_proper _, trivial⟩

theorem byteEnd_proper : (byteEnd K).Proper :=
  ⟨trivial, ⟨trivial, trivial, trivial⟩, ⟨trivial, trivial, trivial⟩, ⟨trivial, trivial, trivial⟩, lit_proper _, trivial⟩

theorem dotMid_proper : (dotMid K).Proper := ⟨trivial, byteMid_proper⟩
theorem dotEnd_proper : (dotEnd K).Proper := ⟨trivial, byteEnd_proper⟩

theorem localV4_proper : (localV4 K).Proper :=
  ⟨⟨⟨lit_proper _, lit_proper _⟩, times_proper dotMid_proper _, dotEnd_proper⟩,
    ⟨⟨lit_proper _, lit_proper _⟩, dotMid_proper, dotEnd_proper⟩,
    lit_proper _, ⟨⟨trivial, trivial⟩, ⟨trivial, trivial⟩, trivial, trivial⟩, dotMid_proper, dotEnd_proper⟩

theorem otherV4_proper : (otherV4 K).Proper :=
  ⟨⟨⟨trivial, trivial, trivial⟩, ⟨trivial, trivial, trivial⟩, ⟨trivial, trivial, trivial⟩, lit_proper _, trivial⟩,
    times_proper dotMid_proper _, dotEnd_proper⟩

theorem hex4_proper : hex4.Proper := between_proper (r := hexDigit) trivial _ _
theorem hexColon_proper : hexColon.Proper := ⟨hex4_proper, trivial⟩
theorem colonHex_proper : colonHex.Proper := ⟨trivial, hex4_proper⟩
theorem byte6_proper : byte6.Proper :=
  ⟨⟨lit_proper _, trivial⟩, ⟨⟨⟨trivial, trivial⟩, ⟨trivial, trivial⟩, trivial⟩, trivial⟩, trivial⟩
theorem v4in6_proper : v4in6.Proper := ⟨times_proper (r := .seq byte6 (char '.')) ⟨byte6_proper, trivial⟩ _, byte6_proper⟩

theorem v6_proper : v6.Proper :=
  ⟨⟨times_proper hexColon_proper _, hex4_proper⟩, ⟨between_proper hexColon_proper _ _, trivial⟩,
    ⟨between_proper hexColon_proper _ _, trivial, hex4_proper⟩,
    ⟨between_proper hexColon_proper _ _, between_proper colonHex_proper _ _⟩,
    ⟨between_proper hexColon_proper _ _, between_proper colonHex_proper _ _⟩,
    ⟨between_proper hexColon_proper _ _, between_proper colonHex_proper _ _⟩,
    ⟨between_proper hexColon_proper _ _, between_proper colonHex_proper _ _⟩,
    ⟨hex4_proper, trivial, between_proper colonHex_proper _ _⟩,
    ⟨trivial, between_proper colonHex_proper _ _, trivial⟩,
    ⟨lit_proper _, upTo_proper (r := .seq (char ':') (hexDigit.upTo 4)) ⟨trivial, upTo_proper (r := hexDigit) trivial _⟩ _, trivial, trivial, trivial⟩,
    ⟨lit_proper _, ⟨⟨lit_proper _, ⟨⟨trivial, between_proper (char_proper '0') _ _⟩, trivial⟩, trivial⟩, trivial⟩, v4in6_proper⟩,
    between_proper hexColon_proper _ _, trivial, v4in6_proper⟩

theorem label_proper : label.Proper := ⟨⟨⟨lit_proper _, trivial, trivial, trivial⟩, by decide⟩, trivial⟩

theorem host_proper : (hostRp K).Proper :=
  ⟨localV4_proper, ⟨lit_proper _, ⟨trivial, trivial, rfl⟩, trivial⟩, otherV4_proper, ⟨trivial, v6_proper, trivial⟩,
    ⟨⟨⟨label_proper, ⟨⟨trivial, label_proper⟩, by decide⟩, trivial⟩, trivial⟩, trivial⟩, label_proper, trivial,
    ⟨times_proper (r := .alt (.seq (lit "xn--") word) letter) ⟨⟨lit_proper _, trivial⟩, trivial⟩ _, ⟨⟨lit_proper _, trivial⟩, trivial⟩, by decide⟩,
    ⟨trivial, trivial, rfl⟩, trivial⟩

theorem user_proper : userRp.Proper :=
  ⟨⟨⟨⟨trivial, trivial, rfl⟩, trivial⟩, ⟨⟨trivial, ⟨trivial, trivial, rfl⟩, trivial⟩, trivial⟩, trivial⟩, trivial⟩

theorem authority_proper : (authorityRp K).Proper :=
  ⟨⟨⟨trivial, trivial⟩, ⟨lit_proper _, trivial⟩, user_proper, host_proper, ⟨trivial, between_proper dig_proper _ _⟩, trivial⟩, trivial⟩

theorem front_proper : (schemeRp.seq ((authorityRp K).seq pathRp)).Proper :=
  ⟨⟨⟨⟨trivial, trivial, rfl⟩, trivial⟩, trivial⟩, authority_proper, ⟨trivial, trivial, rfl⟩, trivial⟩

theorem full_eq (r : Re) (v : Text) : r.full v = r.run ⟨none, v, []⟩ fin := rfl

theorem full_assoc (a b c d : Re) (v : Text) : (a.seq (b.seq (c.seq d))).full v = ((a.seq (b.seq c)).seq d).full v := rfl

/-- Matching something with an end is matching what is before it. -/
theorem full_tail_of {A : Re} (hp : A.Proper) (hh : A.alphabet '#' = false) (hm : A.alphabet '?' = false) {a : Text}
    {q f : Option Text} (ha : '#' ∉ a) (ha' : '?' ∉ a) (hq : '#' ∉ q.getD [])
    (sq : ∀ c ∈ q.getD [], K.space c = false) (sf : ∀ c ∈ f.getD [], K.space c = false) :
    (A.seq ((queryRp K).seq (fragmentRp K))).full (a ++ tailOf q f) =
      ((A.seq ((queryRp K).seq (fragmentRp K))).full a).map (tailCaps q f ++ ·) := by
  simp only [full_eq, seq_run]
  refine run_more (tailCaps q f ++ ·) A hp ?_ ⟨none, a, []⟩ _ _ ?_
  · intro c t h
    cases q with
    | some q => cases h; exact hm
    | none =>
      cases f with
      | none => cases h
      | some f => cases h; exact hh
  · intro t ht
    obtain ⟨w, hw⟩ := eats _ _ _ ht
    have hr : a = w ++ t.rest := hw.rest
    obtain ⟨pv, r, caps⟩ := t
    cases r with
    | nil =>
      show (queryRp K).run ⟨pv, tailOf q f, caps⟩ _ = Option.map _ ((queryRp K).run ⟨pv, tailOf none none, caps⟩ _)
      rw [tail_run pv q f caps hq sq sf,
        tail_run pv none none caps (by simp) (fun _ h => (by cases h)) (fun _ h => (by cases h))]
      rfl
    | cons c r =>
      have hc : c ≠ '?' ∧ c ≠ '#' := by
        have : c ∈ a := by rw [hr]; simp
        exact ⟨fun e => ha' (e ▸ this), fun e => ha (e ▸ this)⟩
      have none_of : ∀ (r : Text), (queryRp K).run ⟨pv, c :: r, caps⟩ (fun t => (fragmentRp K).run t fin) = none := by
        intro r
        cases h : (queryRp K).run ⟨pv, c :: r, caps⟩ (fun t => (fragmentRp K).run t fin) with
        | none => rfl
        | some g =>
          obtain ⟨q, f, e, _⟩ := tail_found h
          cases q with
          | some q => exact absurd (List.cons.inj e).1 hc.1
          | none =>
            cases f with
            | none => cases e
            | some f => exact absurd (List.cons.inj e).1 hc.2
      show (queryRp K).run ⟨pv, c :: (r ++ tailOf q f), caps⟩ _ = Option.map _ _
      rw [none_of, none_of]
      rfl

/-- Matching a url with an end is matching what is before it. -/
theorem full_tail (hK : K.Fine) {a : Text} {q f : Option Text} (ha : '#' ∉ a) (ha' : '?' ∉ a) (hq : '#' ∉ q.getD [])
    (sq : ∀ c ∈ q.getD [], K.space c = false) (sf : ∀ c ∈ f.getD [], K.space c = false) :
    (urlRp K).full (a ++ tailOf q f) = ((urlRp K).full a).map (tailCaps q f ++ ·) := by
  rw [urlRp_eq, full_assoc, full_assoc]
  exact full_tail_of front_proper (front_hash hK) (front_mark hK) ha ha' hq sq sf

theorem look_tail {q f : Option Text} {g : List (Nat × Text)} {n : Nat} (h : n ≠ 15) (h' : n ≠ 16) :
    look (tailCaps q f ++ g) n = look g n := by
  apply look_append
  intro e he
  rcases f with _ | _ | ⟨c, f⟩ <;> cases q <;> simp [tailCaps] at he
  · subst he; exact h.symm
  · subst he; exact h.symm
  · subst he; exact h'.symm
  · rcases he with he | he <;> subst he
    · exact h'.symm
    · exact h.symm

theorem ofGroups_tail {q f : Option Text} {g : List (Nat × Text)} (h15 : look g 15 = none) (h16 : look g 16 = none) :
    ofGroups (tailCaps q f ++ g) = (ofGroups g).map (·.ends q f) := by
  have e15 : look (tailCaps q f ++ g) 15 = q := by
    rcases f with _ | _ | ⟨c, f⟩ <;> cases q <;> simp [tailCaps, look_cons_self, look_cons_ne, h15]
  have e16 : look (tailCaps q f ++ g) 16 = if f = some [] then none else f := by
    rcases f with _ | _ | ⟨c, f⟩ <;> cases q <;> simp [tailCaps, look_cons_self, look_cons_ne, h16]
  have eg : ∀ n, n ≠ 15 → n ≠ 16 → group (tailCaps q f ++ g) n = group g n := fun n h h' => look_tail h h'
  have ec : createHost (tailCaps q f ++ g) = createHost g := by
    simp only [createHost, eg 4 (by decide) (by decide), eg 5 (by decide) (by decide), eg 6 (by decide) (by decide),
      eg 7 (by decide) (by decide), eg 8 (by decide) (by decide), eg 9 (by decide) (by decide), eg 10 (by decide) (by decide),
      eg 11 (by decide) (by decide), eg 12 (by decide) (by decide)]
  have g15 : group (tailCaps q f ++ g) 15 = q := e15
  have g16 : group (tailCaps q f ++ g) 16 = if f = some [] then none else f := e16
  have n15 : group g 15 = none := h15
  have n16 : group g 16 = none := h16
  simp only [ofGroups, ec, g15, g16, n15, n16, eg 1 (by decide) (by decide), eg 2 (by decide) (by decide),
    eg 3 (by decide) (by decide), eg 13 (by decide) (by decide), eg 14 (by decide) (by decide)]
  generalize pathOf (group g 14) = p
  cases p with
  | none => rfl
  | some p =>
    cases q with
    | none => rfl
    | some q =>
      obtain ⟨d, hd⟩ := parseItems_some (Url.split '&' q) []
      simp only [Url.parseQuery, hd, Url.ends, Option.bind_some]
      rfl

/-- C231: a query and a fragment decide nothing else: a url is read as what is before them is, and only with them. -/
theorem C231_end_decides_nothing_else (hK : K.Fine) {a : Text} {q f : Option Text} (ha : '#' ∉ a) (ha' : '?' ∉ a)
    (hq : '#' ∉ q.getD []) (sq : ∀ c ∈ q.getD [], K.space c = false) (sf : ∀ c ∈ f.getD [], K.space c = false) :
    read K (a ++ tailOf q f) = (read K a).map fun u =>
      { u with query := q.bind fun q => Url.parseQuery (some q) false, fragment := if f = some [] then none else f } := by
  unfold read
  rw [full_tail hK ha ha' hq sq sf]
  cases h : (urlRp K).full a with
  | none => rfl
  | some g =>
    obtain ⟨t, q', f', ht, e, hq', hg⟩ := found h
    obtain ⟨w, hw⟩ := eats _ _ _ ht
    have hr : a = w ++ tailOf q' f' := by rw [← e]; exact hw.rest
    have h15 : look t.caps 15 = none := look_sem ht (by rw [front_groups]; decide)
    have h16 : look t.caps 16 = none := look_sem ht (by rw [front_groups]; decide)
    have : q' = none ∧ f' = none := by
      cases q' with
      | some q' => exact absurd (by rw [hr]; simp [tailOf]) ha'
      | none =>
        cases f' with
        | some f' => exact absurd (by rw [hr]; simp [tailOf]) ha
        | none => exact ⟨rfl, rfl⟩
    obtain ⟨rfl, rfl⟩ := this
    have hg : g = t.caps := hg
    subst hg
    exact ofGroups_tail h15 h16

example : read ascii "https://u@h.com:80/a".toList = some ⟨some "https".toList, some (some "u".toList, none),
    some (.externalName none (some "h".toList) (some "com".toList) false), some 80, some ["a".toList], none, none⟩ := by decide +kernel

example : read ascii "https://u@h.com:80/a?x#y".toList = some ⟨some "https".toList, some (some "u".toList, none),
    some (.externalName none (some "h".toList) (some "com".toList) false), some 80, some ["a".toList], some [("x".toList, [[]])],
    some "y".toList⟩ := by decide +kernel

end Verif.UrlText
