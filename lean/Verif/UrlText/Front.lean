import Verif.UrlText.PropsTail

/-! What a match takes for the scheme, the user, the host, the port and the path. -/
namespace Verif.UrlText

variable {K : Classes}

/-- What is taken for a host. -/
structure HostTaken (w dots : Text) (h : Host) : Prop where
  text : hostText h = w
  more : ∀ c ∈ dots, c = '.'
  last : dots ≠ [] → w.getLast? = some '.'
  shape : ':' ∉ w ∨ ∃ x, w = '[' :: x ++ [']'] ∧ ']' ∉ x

theorem v4_colon (h : K.digit ':' = false) : (localV4 K).alphabet ':' = false ∧ (otherV4 K).alphabet ':' = false := by
  have e : ∀ L : Classes, K.digit ':' = L.digit ':' →
      (localV4 K).alphabet ':' = (localV4 L).alphabet ':' ∧ (otherV4 K).alphabet ':' = (otherV4 L).alphabet ':' := by
    intro L h
    constructor
    · simp only [localV4, dotMid, dotEnd, byteMid, byteEnd, dig, alts, seqs, Re.alphabet, Re.times, Re.between, Re.upTo, Re.opt, h]
    · simp only [otherV4, dotMid, dotEnd, byteMid, byteEnd, dig, alts, seqs, Re.alphabet, Re.times, Re.between, Re.upTo, Re.opt, h]
  obtain ⟨h1, h2⟩ := e bare h
  rw [h1, h2]
  decide +kernel

theorem not_mem {r : Re} {s t : Pos} {w : Text} (h : Eats r s t w) {c : Char} (hc : r.alphabet c = false) : c ∉ w := by
  intro hm
  have := h.chars c hm
  rw [hc] at this
  cases this

theorem opt_sem {r : Re} {s t : Pos} (h : r.opt.Sem s t) : r.Sem s t ∨ t = s := h

theorem createHost_eq (g : List (Nat × Text)) : createHost g =
    match look g 4, look g 5, look g 7, look g 8 with
    | some t, _, _, _ => some (.localIpV4 t)
    | none, some t, _, _ => some (.localName t (look g 6).isSome)
    | none, none, some t, _ => some (.externalIpV4 t)
    | none, none, none, some t => some (.externalIpV6 t)
    | none, none, none, none =>
      if (look g 9).isSome ∨ (look g 10).isSome ∨ (look g 11).isSome then
        some (.externalName (look g 9) (look g 10) (look g 11) (look g 12).isSome)
      else none := rfl

theorem localV4_groups : (localV4 K).groups = [] := rfl
theorem otherV4_groups : (otherV4 K).groups = [] := rfl

/-- The dots at the end of a name. -/
theorem dots_sem {n : Nat} {s t : Pos} (h : ((Re.cap n (.plus (char '.'))).opt).Sem s t) :
    ∃ d, s.rest = d ++ t.rest ∧ (∀ c ∈ d, c = '.') ∧ (look t.caps n).isSome = (!d.isEmpty || (look s.caps n).isSome) := by
  rcases opt_sem h with h | h
  · obtain ⟨w, m, hm, hw, e, _, _, hc⟩ := eats_cap h
    refine ⟨w, e, ?_, ?_⟩
    · intro c hc
      have := hw.chars c hc
      have h2 : same '.' c = true := by simpa [Re.plus, Re.alphabet, char] using this
      exact (same_iff rfl (.inl (by decide)) c).1 h2
    · rw [hc, look_cons_self]
      have := hw.some (by rfl)
      cases w with
      | nil => exact absurd rfl this
      | cons a w => rfl
  · subst h
    exact ⟨[], rfl, fun _ h => (by cases h), by simp⟩

theorem dots_taken (d : Text) (w : Text) (hd : ∀ c ∈ d, c = '.') :
    ∃ dots, w ++ d = (w ++ if (!d.isEmpty) = true then ['.'] else []) ++ dots ∧ (∀ c ∈ dots, c = '.') ∧
      (dots ≠ [] → (w ++ if (!d.isEmpty) = true then ['.'] else []).getLast? = some '.') := by
  cases d with
  | nil => exact ⟨[], by simp, fun _ h => (by cases h), fun h => absurd rfl h⟩
  | cons c d =>
    have : c = '.' := hd c List.mem_cons_self
    subst this
    exact ⟨d, by simp, fun c hc => hd c (List.mem_cons_of_mem _ hc), by simp⟩

theorem colon_dot {w : Text} (hw : ':' ∉ w) (b : Bool) : ':' ∉ w ++ if b = true then ['.'] else [] := by
  cases b <;> simp [hw]

def subText : Option Text → Text
  | none => []
  | some w => w ++ ['.']

theorem name_text (ws : Option Text) (wm wt : Text) (b : Bool) : hostText (.externalName ws (some wm) (some wt) b) =
    subText ws ++ wm ++ ('.' :: wt) ++ if b = true then ['.'] else [] := by
  cases ws <;> rfl

/-- What is found for a host is one, whose text was taken. -/
theorem host_sem (hK : K.Fine) {s t : Pos} (h : (hostRp K).Sem s t) (h0 : ∀ n, 4 ≤ n → n ≤ 12 → look s.caps n = none) :
    ∃ w dots x, s.rest = w ++ (dots ++ t.rest) ∧ createHost t.caps = some x ∧ HostTaken w dots x ∧ (∀ c ∈ w, (hostRp K).alphabet c = true) ∧
      w ≠ [] := by
  obtain ⟨W, hW⟩ := eats _ _ _ h
  have sub : ∀ {w dots : Text}, s.rest = w ++ (dots ++ t.rest) → ∀ c ∈ w, (hostRp K).alphabet c = true := by
    intro w dots e c hc
    have : W = w ++ dots := List.append_cancel_right (by rw [← hW.rest, e, List.append_assoc])
    exact hW.chars c (by rw [this]; exact List.mem_append_left _ hc)
  have kc : K.digit ':' = false := hK.digit _ (by decide)
  rcases h with h | h | h | h | h
  · obtain ⟨w, m, hm, hw, e, _, _, hc⟩ := eats_cap h
    have e' : s.rest = w ++ ([] ++ t.rest) := e
    refine ⟨w, [], .localIpV4 w, e', ?_, ⟨rfl, fun _ h => (by cases h), fun h => absurd rfl h, .inl (not_mem hw (v4_colon kc).1)⟩, sub e',
      hw.some (by rfl)⟩
    rw [createHost_eq, hc, look_cons_self]
  · obtain ⟨p, hp, hd⟩ := h
    obtain ⟨w, m, hm, hw, e, _, _, hc⟩ := eats_cap hp
    obtain ⟨d, ed, hdd, hs⟩ := dots_sem hd
    obtain ⟨dots, e1, e2, e3⟩ := dots_taken d w hdd
    have e' : s.rest = (w ++ if (!d.isEmpty) = true then ['.'] else []) ++ (dots ++ t.rest) := by
      rw [e, ed, ← List.append_assoc, ← List.append_assoc, e1]
    have hwc : ':' ∉ w := not_mem hw (by decide)
    have l4 : look t.caps 4 = none := by rw [look_sem hd (by decide), hc, look_cons_ne (by decide), look_sem hm (by decide), h0 4 (by decide) (by decide)]
    have l5 : look t.caps 5 = some w := by rw [look_sem hd (by decide), hc, look_cons_self]
    have l6 : (look t.caps 6).isSome = !d.isEmpty := by
      rw [hs, hc, look_cons_ne (by decide), look_sem hm (by decide), h0 6 (by decide) (by decide)]; simp
    refine ⟨_, dots, .localName w (!d.isEmpty), e', ?_, ⟨rfl, e2, e3, .inl (colon_dot hwc _)⟩, sub e', ?_⟩
    · rw [createHost_eq, l4, l5, l6]
    · have := hw.some (by decide)
      simp [this]
  · obtain ⟨w, m, hm, hw, e, _, _, hc⟩ := eats_cap h
    have e' : s.rest = w ++ ([] ++ t.rest) := e
    have l : ∀ n, n ≠ 7 → 4 ≤ n → n ≤ 12 → look t.caps n = none := fun n h1 h2 h3 => by
      rw [hc, look_cons_ne h1.symm, look_sem hm (by rw [otherV4_groups]; simp), h0 n h2 h3]
    refine ⟨w, [], .externalIpV4 w, e', ?_, ⟨rfl, fun _ h => (by cases h), fun h => absurd rfl h, .inl (not_mem hw (v4_colon kc).2)⟩, sub e',
      hw.some (by rfl)⟩
    rw [createHost_eq, l 4 (by decide) (by decide) (by decide), l 5 (by decide) (by decide) (by decide), hc, look_cons_self]
  · obtain ⟨a, ha, b, hb, hd⟩ := h
    obtain ⟨ea, ea'⟩ := char_sem rfl (.inl (by decide)) ha
    obtain ⟨ed, ed'⟩ := char_sem rfl (.inl (by decide)) hd
    obtain ⟨w, m, hm, hw, e, _, _, hc⟩ := eats_cap hb
    have ct : t.caps = b.caps := by rw [ed']
    have ca : a.caps = s.caps := by rw [ea']
    have e' : s.rest = ('[' :: w ++ [']']) ++ ([] ++ t.rest) := by rw [ea, e, ed]; simp
    have l : ∀ n, n ≠ 8 → 4 ≤ n → n ≤ 12 → look t.caps n = none := fun n h1 h2 h3 => by
      rw [ct, hc, look_cons_ne h1.symm, look_sem hm (by
        intro h
        have : v6.groups = [] := by decide
        rw [this] at h
        cases h), ca, h0 n h2 h3]
    refine ⟨_, [], .externalIpV6 w, e', ?_,
      ⟨rfl, fun _ h => (by cases h), fun h => absurd rfl h, .inr ⟨w, rfl, not_mem hw (by decide +kernel)⟩⟩, sub e', by simp⟩
    rw [createHost_eq, l 4 (by decide) (by decide) (by decide), l 5 (by decide) (by decide) (by decide), l 7 (by decide) (by decide) (by decide),
      ct, hc, look_cons_self]
  · obtain ⟨a, ha, b, hb, c, hc, d, hd, he⟩ := h
    obtain ⟨wm, mm, hmm, hwm, em, _, _, cm⟩ := eats_cap hb
    obtain ⟨ec, ec'⟩ := char_sem rfl (.inl (by decide)) hc
    obtain ⟨wt, mt, hmt, hwt, et, _, _, ctp⟩ := eats_cap hd
    have he : ((Re.cap 12 (.plus (char '.'))).opt).Sem d t := he
    obtain ⟨dd, ed, hdd, hs⟩ := dots_sem he
    have cc : c.caps = b.caps := by rw [ec']
    have gl : label.groups = [] := by decide
    -- the sub domain
    have hsub : ∃ ws : Option Text, s.rest = subText ws ++ a.rest ∧
        look a.caps 9 = ws ∧ (∀ n, n ≠ 9 → look a.caps n = look s.caps n) ∧ ':' ∉ ws.getD [] := by
      rcases opt_sem ha with ha | ha
      · obtain ⟨p, hp, hq⟩ := ha
        obtain ⟨w, m, hm, hw, e, _, _, hcp⟩ := eats_cap hp
        obtain ⟨eq, eq'⟩ := char_sem rfl (.inl (by decide)) hq
        have cq : a.caps = p.caps := by rw [eq']
        refine ⟨some w, by rw [e, eq]; simp [subText], by rw [cq, hcp, look_cons_self], ?_, not_mem hw (by decide)⟩
        intro n hn
        rw [cq, hcp, look_cons_ne hn.symm, look_sem hm]
        have : (label.seq ((Re.seq (char '.') label).many).opt).groups = [] := by decide
        rw [this]; simp
      · subst ha
        exact ⟨none, rfl, h0 9 (by decide) (by decide), fun _ _ => rfl, by simp⟩
    obtain ⟨ws, es, l9, ls, hws⟩ := hsub
    have gt : (((Re.alt (.seq (lit "xn--") word) letter).times 2).seq ((Re.alt (.seq (lit "xn--") word) letter).many)).groups = [] := by
      decide
    have lt : ∀ n, n ≠ 12 → n ≠ 11 → n ≠ 10 → n ≠ 9 → 4 ≤ n → n ≤ 12 → look t.caps n = none := by
      intro n h12 h11 h10 h9 h4 h5
      rw [look_sem he (by
          intro h
          have : ((Re.cap 12 (.plus (char '.'))).opt).groups = [12] := by decide
          rw [this] at h
          simp at h
          exact h12 h), ctp, look_cons_ne h11.symm, look_sem hmt (by rw [gt]; simp), cc, cm, look_cons_ne h10.symm,
        look_sem hmm (by rw [gl]; simp), ls n h9, h0 n h4 h5]
    have t12 : ∀ n, n ≠ 12 → look t.caps n = look d.caps n := fun n h12 => look_sem he (by
      intro h
      have : ((Re.cap 12 (.plus (char '.'))).opt).groups = [12] := by decide
      rw [this] at h
      simp at h
      exact h12 h)
    have l11 : look t.caps 11 = some wt := by rw [t12 11 (by decide), ctp, look_cons_self]
    have l10 : look t.caps 10 = some wm := by
      rw [t12 10 (by decide), ctp, look_cons_ne (by decide), look_sem hmt (by rw [gt]; simp), cc, cm, look_cons_self]
    have l9' : look t.caps 9 = ws := by
      rw [t12 9 (by decide), ctp, look_cons_ne (by decide), look_sem hmt (by rw [gt]; simp), cc, cm, look_cons_ne (by decide),
        look_sem hmm (by rw [gl]; simp), l9]
    have l12 : (look t.caps 12).isSome = !dd.isEmpty := by
      rw [hs, ctp, look_cons_ne (by decide), look_sem hmt (by rw [gt]; simp), cc, cm, look_cons_ne (by decide),
        look_sem hmm (by rw [gl]; simp), ls 12 (by decide), h0 12 (by decide) (by decide)]
      simp
    have hx : createHost t.caps = some (.externalName ws (some wm) (some wt) (!dd.isEmpty)) := by
      rw [createHost_eq, lt 4 (by decide) (by decide) (by decide) (by decide) (by decide) (by decide),
        lt 5 (by decide) (by decide) (by decide) (by decide) (by decide) (by decide),
        lt 7 (by decide) (by decide) (by decide) (by decide) (by decide) (by decide),
        lt 8 (by decide) (by decide) (by decide) (by decide) (by decide) (by decide)]
      simp [l9', l10, l11, l12]
    obtain ⟨dots, e1, e2, e3⟩ := dots_taken dd (subText ws ++ wm ++ '.' :: wt) hdd
    have e' : s.rest = hostText (.externalName ws (some wm) (some wt) (!dd.isEmpty)) ++ (dots ++ t.rest) := by
      rw [name_text, es, em, ec, et, ed, ← List.append_assoc (as := _ ++ if (!dd.isEmpty) = true then ['.'] else []), ← e1]
      simp
    refine ⟨_, dots, _, e', hx, ⟨rfl, e2, by rw [name_text]; exact e3, .inl ?_⟩, sub e', ?_⟩
    · rw [name_text]
      have h1 : ':' ∉ wm := not_mem hwm (by decide)
      have h2 : ':' ∉ wt := not_mem hwt (by decide)
      refine colon_dot ?_ _
      cases ws with
      | none => simp [h1, h2, subText]
      | some w =>
        have : ':' ∉ w := hws
        simp [h1, h2, this, subText]
    · simp [hostText]

/-! ### The user and the port -/

/-- The user and the password of a text before `@`. -/
def infoOf (i : Text) : Option Text × Option Text :=
  (if (cut ':' i).1 = [] then none else some (cut ':' i).1, if (cut ':' i).2 = some [] then none else (cut ':' i).2)

theorem user_sem {s t : Pos} (h : userRp.Sem s t) (h2 : look s.caps 2 = none) (h3 : look s.caps 3 = none) :
    (t = s ∧ look t.caps 2 = none ∧ look t.caps 3 = none) ∨
      ∃ i, s.rest = i ++ '@' :: t.rest ∧ '@' ∉ i ∧ '/' ∉ i ∧ '?' ∉ i ∧ '#' ∉ i ∧ look t.caps 2 = (infoOf i).1 ∧ look t.caps 3 = (infoOf i).2 := by
  rcases opt_sem h with h | h
  · right
    obtain ⟨a, ha, b, hb, hc⟩ := h
    obtain ⟨ec, ec'⟩ := char_sem rfl (.inl (by decide)) hc
    have ct : t.caps = b.caps := by rw [ec']
    have hn : ∃ n : Text, s.rest = n ++ a.rest ∧ (∀ c ∈ n, isName c = true) ∧ look a.caps 2 = (if n = [] then none else some n) ∧
        look a.caps 3 = none := by
      rcases opt_sem ha with ha | ha
      · obtain ⟨w, m, hm, hw, e, _, _, hcp⟩ := eats_cap ha
        refine ⟨w, e, fun c hc => ?_, ?_, ?_⟩
        · simpa [Re.lazyPlus, Re.alphabet] using hw.chars c hc
        · rw [hcp, look_cons_self, if_neg (hw.some (by rfl))]
        · rw [hcp, look_cons_ne (by decide), look_sem hm (by simp [Re.lazyPlus, Re.groups]), h3]
      · subst ha
        exact ⟨[], rfl, fun _ h => (by cases h), h2, h3⟩
    obtain ⟨n, en, hn, n2, n3⟩ := hn
    have nx : ∀ x, isName x = false → x ∉ n := fun x hx hm => by rw [hn x hm] at hx; cases hx
    rcases opt_sem hb with hb | hb
    · obtain ⟨p, hp, hq⟩ := hb
      obtain ⟨ep, ep'⟩ := char_sem rfl (.inl (by decide)) hp
      have cp : p.caps = a.caps := by rw [ep']
      have hpw : ∃ w : Text, p.rest = w ++ b.rest ∧ (∀ c ∈ w, isSecret c = true) ∧ look b.caps 3 = (if w = [] then none else some w) ∧
          look b.caps 2 = look a.caps 2 := by
        rcases opt_sem hq with hq | hq
        · obtain ⟨w, m, hm, hw, e, _, _, hcp⟩ := eats_cap hq
          refine ⟨w, e, fun c hc => ?_, ?_, ?_⟩
          · simpa [Re.plus, Re.alphabet] using hw.chars c hc
          · rw [hcp, look_cons_self, if_neg (hw.some (by rfl))]
          · rw [hcp, look_cons_ne (by decide), look_sem hm (by simp [Re.plus, Re.groups]), cp]
        · subst hq
          exact ⟨[], rfl, fun _ h => (by cases h), by rw [cp, n3]; rfl, by rw [cp]⟩
      obtain ⟨w, ew, hw, w3, w2⟩ := hpw
      have wx : ∀ x, isSecret x = false → x ∉ w := fun x hx hm => by rw [hw x hm] at hx; cases hx
      have hcut : cut ':' (n ++ ':' :: w) = (n, some w) := by
        rw [cut_append _ (nx ':' (by decide))]
        simp [cut]
      refine ⟨n ++ ':' :: w, by rw [en, ep, ew, ec]; simp, ?_, ?_, ?_, ?_, ?_, ?_⟩
      · simp [nx '@' (by decide), wx '@' (by decide)]
      · simp [nx '/' (by decide), wx '/' (by decide)]
      · simp [nx '?' (by decide), wx '?' (by decide)]
      · simp [nx '#' (by decide), wx '#' (by decide)]
      · rw [ct, w2, n2, infoOf, hcut]
      · rw [ct, w3, infoOf, hcut]
        simp
    · subst hb
      have hcut : cut ':' n = (n, none) := by
        have := cut_append (x := ':') (a := n) [] (nx ':' (by decide))
        simpa [cut] using this
      refine ⟨n, by rw [en, ec], nx _ (by decide), nx _ (by decide), nx _ (by decide), nx _ (by decide), ?_, ?_⟩
      · rw [ct, n2, infoOf, hcut]
      · rw [ct, n3, infoOf, hcut]
        simp
  · left
    subst h
    exact ⟨rfl, h2, h3⟩

theorem port_sem {s t : Pos} (h : ((Re.seq (char ':') (.cap 13 ((dig K).between 2 5))).opt).Sem s t) (h13 : look s.caps 13 = none) :
    (t = s ∧ look t.caps 13 = none) ∨ ∃ d, s.rest = ':' :: (d ++ t.rest) ∧ d ≠ [] ∧ (∀ c ∈ d, K.digit c = true) ∧ look t.caps 13 = some d := by
  rcases opt_sem h with h | h
  · right
    obtain ⟨a, ha, hb⟩ := h
    obtain ⟨ea, _⟩ := char_sem rfl (.inl (by decide)) ha
    obtain ⟨w, m, hm, hw, e, _, _, hc⟩ := eats_cap hb
    refine ⟨w, by rw [ea, e], hw.some (by rfl), fun c hc => ?_, by rw [hc, look_cons_self]⟩
    have := hw.chars c hc
    simpa [Re.between, Re.times, Re.upTo, Re.opt, Re.alphabet, dig] using this
  · left
    subst h
    exact ⟨rfl, h13⟩

theorem path_sem {s t : Pos} (h : pathRp.Sem s t) (h14 : look s.caps 14 = none) :
    (t = s ∧ look t.caps 14 = none) ∨ ∃ p, s.rest = '/' :: p ++ t.rest ∧ (∀ c ∈ p, isPath c = true) ∧ look t.caps 14 = some ('/' :: p) := by
  rcases opt_sem h with h | h
  · right
    obtain ⟨w, m, hm, hw, e, _, er, hc⟩ := eats_cap h
    obtain ⟨a, ha, hb⟩ := hm
    obtain ⟨ea, _⟩ := char_sem rfl (.inl (by decide)) ha
    obtain ⟨p, ep, hp, _⟩ := star_chr_sem hb
    have : w = '/' :: p := List.append_cancel_right (by rw [← e, ea, ep, er]; rfl)
    exact ⟨p, by rw [e, this], hp, by rw [hc, look_cons_self, this]⟩
  · left
    subst h
    exact ⟨rfl, h14⟩

theorem scheme_sem {s t : Pos} (h : schemeRp.Sem s t) (h1 : look s.caps 1 = none) :
    (t = s ∧ look t.caps 1 = none) ∨ ∃ x, s.rest = x ++ ':' :: t.rest ∧ ':' ∉ x ∧ '/' ∉ x ∧ x ≠ [] ∧ look t.caps 1 = some x := by
  rcases opt_sem h with h | h
  · right
    obtain ⟨a, ha, hb⟩ := h
    obtain ⟨eb, eb'⟩ := char_sem rfl (.inl (by decide)) hb
    obtain ⟨w, m, hm, hw, e, _, _, hc⟩ := eats_cap ha
    exact ⟨w, by rw [e, eb], not_mem hw (by decide), not_mem hw (by decide), hw.some (by rfl), by rw [eb']; show look a.caps 1 = _; rw [hc, look_cons_self]⟩
  · left
    subst h
    exact ⟨rfl, h1⟩

/-- What is taken for an authority: the user, the host, dots and the port. -/
structure Taken (K : Classes) (a : Text) (user : Option Text × Option Text) (h : Host) (port : Option Text) : Prop where
  parts : ∃ i w dots p, a = i ++ w ++ dots ++ p ∧ HostTaken w dots h ∧ w ≠ [] ∧ '@' ∉ w ∧ '/' ∉ w ∧ '?' ∉ w ∧ '#' ∉ w ∧
    ((i = [] ∧ user = (none, none)) ∨
      ∃ n, i = n ++ ['@'] ∧ '@' ∉ n ∧ '/' ∉ n ∧ '?' ∉ n ∧ '#' ∉ n ∧ user = infoOf n) ∧
    ((p = [] ∧ port = none) ∨ ∃ d, p = ':' :: d ∧ d ≠ [] ∧ (∀ c ∈ d, K.digit c = true) ∧ port = some d)

theorem authority_sem (hK : K.Fine) {s t : Pos} (h : (authorityRp K).Sem s t) (h0 : ∀ n, 2 ≤ n → n ≤ 13 → look s.caps n = none) :
    (t = s ∧ createHost t.caps = none) ∨
      ∃ sl a x, s.rest = sl ++ (a ++ t.rest) ∧ (sl = [] ∨ sl = ['/', '/']) ∧ createHost t.caps = some x ∧
        Taken K a (look t.caps 2, look t.caps 3) x (look t.caps 13) := by
  rcases opt_sem h with h | h
  · right
    obtain ⟨a, ha, b, hb, c, hc, d, hd, he⟩ := h
    have hab : a = s := by
      rcases ha with ha | ha <;> exact ha.2
    subst hab
    have hsl : ∃ sl, a.rest = sl ++ b.rest ∧ (sl = [] ∨ sl = ['/', '/']) ∧ b.caps = a.caps := by
      rcases opt_sem hb with hb | hb
      · obtain ⟨m, hm, hm'⟩ := hb
        obtain ⟨e1, e1'⟩ := char_sem rfl (.inl (by decide)) hm
        obtain ⟨e2, e2'⟩ := char_sem (a := '/') rfl (.inl (by decide)) hm'
        exact ⟨['/', '/'], by rw [e1, e2]; rfl, .inr rfl, by rw [e2']; show m.caps = _; rw [e1']⟩
      · subst hb
        exact ⟨[], rfl, .inl rfl, rfl⟩
    obtain ⟨sl, es, hs, cb⟩ := hsl
    have he : ((Re.seq (char ':') (.cap 13 ((dig K).between 2 5))).opt).Sem d t := he
    have hgp : ((Re.seq (char ':') (.cap 13 ((dig K).between 2 5))).opt).groups = [13] := rfl
    have hgu : userRp.groups = [2, 3] := rfl
    have lc : ∀ n, 4 ≤ n → n ≤ 13 → look c.caps n = none := fun n h4 h13 => by
      rw [look_sem hc (by rw [hgu]; simp; omega), cb, h0 n (by omega) h13]
    obtain ⟨w, dots, x, ew, hx, hw, wc, wn⟩ := host_sem hK hd (fun n h4 h12 => lc n h4 (by omega))
    have hxt : createHost t.caps = some x := by
      have l : ∀ n, n ≠ 13 → look t.caps n = look d.caps n := fun n hn => look_sem he (by rw [hgp]; simpa using hn)
      rw [createHost_eq, l 4 (by decide), l 5 (by decide), l 6 (by decide), l 7 (by decide), l 8 (by decide), l 9 (by decide),
        l 10 (by decide), l 11 (by decide), l 12 (by decide), ← createHost_eq, hx]
    have l2 : look t.caps 2 = look c.caps 2 := by
      rw [look_sem he (by rw [hgp]; decide), look_sem hd (by rw [host_groups]; decide)]
    have l3 : look t.caps 3 = look c.caps 3 := by
      rw [look_sem he (by rw [hgp]; decide), look_sem hd (by rw [host_groups]; decide)]
    have wx : ∀ y, y.toNat < 128 → isDigit y = false → (hostRp bare).alphabet y = false → y ∉ w := fun y h1 h2 h3 hm => by
      have := wc y hm
      rw [not_host ((hK.digit y h1).trans h2) h3] at this
      cases this
    have hport := port_sem he (by rw [look_sem hd (by rw [host_groups]; decide), lc 13 (by decide) (by decide)])
    have huser := user_sem hc (by rw [cb, h0 2 (by decide) (by decide)]) (by rw [cb, h0 3 (by decide) (by decide)])
    -- the port
    obtain ⟨p, ep, hp⟩ : ∃ p, d.rest = p ++ t.rest ∧
        ((p = [] ∧ look t.caps 13 = none) ∨ ∃ d, p = ':' :: d ∧ d ≠ [] ∧ (∀ c ∈ d, K.digit c = true) ∧ look t.caps 13 = some d) := by
      rcases hport with ⟨h1, h2⟩ | ⟨dg, h1, hne, h2, h3⟩
      · subst h1; exact ⟨[], rfl, .inl ⟨rfl, h2⟩⟩
      · exact ⟨':' :: dg, h1, .inr ⟨dg, rfl, hne, h2, h3⟩⟩
    obtain ⟨i, ei, hi⟩ : ∃ i, b.rest = i ++ c.rest ∧ ((i = [] ∧ (look t.caps 2, look t.caps 3) = (none, none)) ∨
        ∃ n, i = n ++ ['@'] ∧ '@' ∉ n ∧ '/' ∉ n ∧ '?' ∉ n ∧ '#' ∉ n ∧ (look t.caps 2, look t.caps 3) = infoOf n) := by
      rw [l2, l3]
      rcases huser with ⟨h1, h2, h3⟩ | ⟨n, h1, h2, h3, h4, h5, h6, h7⟩
      · subst h1; exact ⟨[], rfl, .inl ⟨rfl, by rw [h2, h3]⟩⟩
      · exact ⟨n ++ ['@'], by rw [h1]; simp, .inr ⟨n, rfl, h2, h3, h4, h5, by rw [h6, h7]⟩⟩
    refine ⟨sl, i ++ w ++ dots ++ p, x, by rw [es, ei, ew, ep]; simp, hs, hxt, ⟨i, w, dots, p, rfl, hw, wn, ?_, ?_, ?_, ?_, hi, hp⟩⟩
    · exact wx _ (by decide) (by decide) (by decide +kernel)
    · exact wx _ (by decide) (by decide) (by decide +kernel)
    · exact wx _ (by decide) (by decide) (by decide +kernel)
    · exact wx _ (by decide) (by decide) (by decide +kernel)
  · left
    subst h
    refine ⟨rfl, ?_⟩
    rw [createHost_eq, h0 4 (by decide) (by decide), h0 5 (by decide) (by decide), h0 7 (by decide) (by decide),
      h0 8 (by decide) (by decide), h0 9 (by decide) (by decide), h0 10 (by decide) (by decide), h0 11 (by decide) (by decide)]
    rfl

end Verif.UrlText
