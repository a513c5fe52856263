import Verif.UrlText.Front

/-! C232: the host of a url is the one its text names. -/
namespace Verif.UrlText

variable {K : Classes}

/-- The specification, RFC 3986 3.2: an authority is a user with `@`, a host and a port with `:`. Dots at the end of a host are as
one. -/
structure Authority (a : Text) (user : Option (Option Text × Option Text)) (h : Host) (port : Option Nat) : Prop where
  parts : ∃ i w dots p, a = i ++ w ++ dots ++ p ∧
    hostText h = w ∧ w ≠ [] ∧ '@' ∉ w ∧ (':' ∉ w ∨ ∃ x, w = '[' :: x ++ [']'] ∧ ']' ∉ x) ∧
    (∀ c ∈ dots, c = '.') ∧ (dots ≠ [] → w.getLast? = some '.') ∧
    ((i = [] ∧ user = none) ∨
      ∃ n, i = n ++ ['@'] ∧ '@' ∉ n ∧ ((user.bind (·.1)).getD [] = (cut ':' n).1 ∧ (user.bind (·.2)).getD [] = (cut ':' n).2.getD [])) ∧
    ((p = [] ∧ port = none) ∨ ∃ d, p = ':' :: d ∧ d ≠ [] ∧ ':' ∉ d ∧ '@' ∉ d ∧ port = some (d.foldl (fun n c => 10 * n + (c.toNat - 48)) 0))

/-- The authority of the text behind `//`. -/
def authorityOf (rest : Text) : Text := rest.takeWhile fun c => c != '/' && c != '?' && c != '#'

theorem takeWhile_all {p : Char → Bool} : ∀ {a : Text} {b : Text}, (∀ c ∈ a, p c = true) → (∀ c t, b = c :: t → p c = false) →
    (a ++ b).takeWhile p = a := by
  intro a b ha hb
  rw [List.takeWhile_append_of_pos ha]
  cases b with
  | nil => simp
  | cons c t => simp [hb c t rfl]

theorem not_stop {a : Text} (h1 : '/' ∉ a) (h2 : '?' ∉ a) (h3 : '#' ∉ a) : ∀ c ∈ a, (c != '/' && c != '?' && c != '#') = true := by
  intro c hc
  have n1 : c ≠ '/' := fun e => h1 (e ▸ hc)
  have n2 : c ≠ '?' := fun e => h2 (e ▸ hc)
  have n3 : c ≠ '#' := fun e => h3 (e ▸ hc)
  simp [n1, n2, n3]

theorem Taken.stop (hK : K.Fine) {a : Text} {user : Option Text × Option Text} {h : Host} {port : Option Text} (ht : Taken K a user h port) :
    '/' ∉ a ∧ '?' ∉ a ∧ '#' ∉ a ∧ a ≠ [] := by
  obtain ⟨i, w, dots, p, e, hw, wn, _, w1, w2, w3, hi, hp⟩ := ht.parts
  have hd : ∀ c, c ≠ '.' → c ∉ dots := fun c hc hm => hc (hw.more c hm)
  have hi' : ∀ c, c = '/' ∨ c = '?' ∨ c = '#' → c ∉ i := by
    intro c hc
    rcases hi with ⟨rfl, _⟩ | ⟨n, rfl, _, n1, n2, n3, _⟩
    · simp
    · rcases hc with rfl | rfl | rfl <;> simp [n1, n2, n3]
  have hp' : ∀ c, c = '/' ∨ c = '?' ∨ c = '#' → c ∉ p := by
    intro c hc
    rcases hp with ⟨rfl, _⟩ | ⟨d, rfl, _, hd, _⟩
    · simp
    · have : K.digit c = false := by
        rcases hc with rfl | rfl | rfl <;> exact (hK.digit _ (by decide)).trans (by decide)
      intro h
      rcases List.mem_cons.1 h with h | h
      · rcases hc with rfl | rfl | rfl <;> exact absurd h (by decide)
      · rw [hd c h] at this; cases this
  subst e
  refine ⟨?_, ?_, ?_, by simp [wn]⟩
  · simp [hi' '/' (by simp), w1, hd '/' (by decide), hp' '/' (by simp)]
  · simp [hi' '?' (by simp), w2, hd '?' (by decide), hp' '?' (by simp)]
  · simp [hi' '#' (by simp), w3, hd '#' (by decide), hp' '#' (by simp)]

theorem tail_head {q f : Option Text} : tailOf q f = [] ∨ (∃ t, tailOf q f = '?' :: t) ∨ ∃ t, tailOf q f = '#' :: t := by
  cases q with
  | some q => exact .inr (.inl ⟨_, rfl⟩)
  | none =>
    cases f with
    | some f => exact .inr (.inr ⟨_, rfl⟩)
    | none => exact .inl rfl

/-- The parts of a url which was found, of which one is a host. -/
theorem host_found (hK : K.Fine) {v : Text} {u : Url} {h : Host} (hr : read K v = some u) (hh : u.host = some h) :
    ∃ x sl a rest, v = x ++ (sl ++ (a ++ rest)) ∧ ((x = [] ∧ u.scheme = none) ∨ ∃ s, x = s ++ [':'] ∧ u.scheme = some s ∧ ':' ∉ s ∧ '/' ∉ s ∧ s ≠ []) ∧
      (sl = [] ∨ sl = ['/', '/']) ∧ (∀ c t, rest = c :: t → c = '/' ∨ c = '?' ∨ c = '#') ∧
      ∃ user port, Taken K a user h port ∧ u.user = (if user.1.isSome ∨ user.2.isSome then some user else none) ∧ u.port = port.map number := by
  obtain ⟨g, hg, hu⟩ := Option.bind_eq_some_iff.1 hr
  obtain ⟨t, q, f, ht, e, hq, hg⟩ := found hg
  obtain ⟨a, ha, b, hb, hc⟩ := ht
  obtain ⟨u1, u2, u3, u4, _, _, _⟩ := ofGroups_cases hu
  have hgs : schemeRp.groups = [1] := rfl
  have hga : (authorityRp K).groups = [2, 3, 4, 5, 6, 7, 8, 9, 10, 11, 12, 13] := rfl
  have hgp : pathRp.groups = [14] := rfl
  have la : ∀ n, n ≠ 1 → look a.caps n = none := fun n hn => look_sem ha (by rw [hgs]; simpa using hn)
  have lt : ∀ n, n ≤ 13 → look g n = look b.caps n := fun n hn => by
    rw [hg, look_tail (by omega) (by omega), look_sem hc (by rw [hgp]; simp; omega)]
  have hcb : createHost g = createHost b.caps := by
    rw [createHost_eq, createHost_eq, lt 4 (by decide), lt 5 (by decide), lt 6 (by decide), lt 7 (by decide), lt 8 (by decide),
      lt 9 (by decide), lt 10 (by decide), lt 11 (by decide), lt 12 (by decide)]
  have hcb' : createHost b.caps = some h := by rw [← hcb, ← u3, hh]
  have l1 : look g 1 = look a.caps 1 := by rw [lt 1 (by decide), look_sem hb (by rw [hga]; decide)]
  have hrest : ∀ c t', b.rest = c :: t' → c = '/' ∨ c = '?' ∨ c = '#' := by
    intro c t' hcr
    rcases path_sem hc (by rw [look_sem hb (by rw [hga]; decide), la 14 (by decide)]) with ⟨h1, _⟩ | ⟨p, h1, _⟩
    · subst h1
      rw [e] at hcr
      rcases tail_head (q := q) (f := f) with h | ⟨_, h⟩ | ⟨_, h⟩ <;> rw [h] at hcr <;> cases hcr
      · exact .inr (.inl rfl)
      · exact .inr (.inr rfl)
    · rw [h1] at hcr
      exact .inl (List.cons.inj hcr).1.symm
  rcases authority_sem hK hb (fun n h2 _ => la n (by omega)) with ⟨_, h1⟩ | ⟨sl, au, x, h1, h2, h3, h4⟩
  · rw [h1] at hcb'; cases hcb'
  · have : x = h := Option.some.inj (by rw [← h3, hcb'])
    subst this
    have hx : ∃ x, v = x ++ a.rest ∧
        ((x = [] ∧ u.scheme = none) ∨ ∃ s, x = s ++ [':'] ∧ u.scheme = some s ∧ ':' ∉ s ∧ '/' ∉ s ∧ s ≠ []) := by
      rcases scheme_sem ha rfl with ⟨h5, h6⟩ | ⟨s, h5, h6, h7, h8, h9⟩
      · exact ⟨[], by rw [h5]; rfl, .inl ⟨rfl, by rw [u1, l1, h6]⟩⟩
      · exact ⟨s ++ [':'], (show v = s ++ ':' :: a.rest from h5).trans (by simp), .inr ⟨s, rfl, by rw [u1, l1, h9], h6, h7, h8⟩⟩
    obtain ⟨x, ex, hx⟩ := hx
    exact ⟨x, sl, au, b.rest, by rw [ex, h1], hx, h2, hrest, _, _, h4, by rw [u2, lt 2 (by decide), lt 3 (by decide)],
      by rw [u4, lt 13 (by decide)]⟩

theorem Taken.authority (hK : K.Fine) {a : Text} {user : Option Text × Option Text} {h : Host} {port : Option Text} (ht : Taken K a user h port) :
    Authority a (if user.1.isSome ∨ user.2.isSome then some user else none) h (port.map number) := by
  obtain ⟨i, w, dots, p, e, hw, wn, w0, _, _, _, hi, hp⟩ := ht.parts
  refine ⟨i, w, dots, p, e, hw.text, wn, w0, hw.shape, hw.more, hw.last, ?_, ?_⟩
  · rcases hi with ⟨h1, rfl⟩ | ⟨n, h1, h2, _, _, _, rfl⟩
    · exact .inl ⟨h1, by simp⟩
    · refine .inr ⟨n, h1, h2, ?_⟩
      have key : ∀ (x : Text) (y : Option Text), (((if ((if x = [] then none else some x : Option Text)).isSome = true ∨
          ((if y = some [] then none else y : Option Text)).isSome = true then
          some ((if x = [] then none else some x : Option Text), (if y = some [] then none else y : Option Text)) else none).bind
          (·.1)).getD [] = x) ∧ (((if ((if x = [] then none else some x : Option Text)).isSome = true ∨
          ((if y = some [] then none else y : Option Text)).isSome = true then
          some ((if x = [] then none else some x : Option Text), (if y = some [] then none else y : Option Text)) else none).bind
          (·.2)).getD [] = y.getD []) := by
        intro x y
        rcases x with _ | ⟨c, x⟩ <;> rcases y with _ | _ | ⟨d, y⟩ <;> simp
      exact key _ _
  · rcases hp with ⟨h1, rfl⟩ | ⟨d, h1, h2, h3, rfl⟩
    · exact .inl ⟨h1, rfl⟩
    · refine .inr ⟨d, h1, h2, ?_, ?_, rfl⟩
      · intro hm
        have := h3 _ hm
        rw [hK.digit _ (by decide)] at this
        exact absurd this (by decide)
      · intro hm
        have := h3 _ hm
        rw [hK.digit _ (by decide)] at this
        exact absurd this (by decide)

/-- The characters of a scheme, those of others which are of use here excluded. -/
def SchemeText (s : Text) : Prop := ∀ c ∈ s, c ≠ ':' ∧ c ≠ '/' ∧ c ≠ '?' ∧ c ≠ '#' ∧ c ≠ '@' ∧ c ≠ '['

theorem split_colon : ∀ {s x : Text} {a b : Text}, ':' ∉ s → ':' ∉ x → s ++ ':' :: a = x ++ ':' :: b → s = x ∧ a = b := by
  intro s
  induction s with
  | nil =>
    intro x a b _ hx e
    cases x with
    | nil => exact ⟨rfl, (List.cons.inj e).2⟩
    | cons c x =>
      exfalso
      have := (List.cons.inj e).1
      exact hx (this ▸ List.mem_cons_self)
  | cons c s ih =>
    intro x a b hs hx e
    cases x with
    | nil =>
      exfalso
      have := (List.cons.inj e).1
      exact hs (this ▸ List.mem_cons_self)
    | cons d x =>
      obtain ⟨e1, e2⟩ := List.cons.inj e
      obtain ⟨h1, h2⟩ := ih (fun h => hs (List.mem_cons_of_mem _ h)) (fun h => hx (List.mem_cons_of_mem _ h)) e2
      exact ⟨by rw [e1, h1], h2⟩

/-- A text before a slash is a prefix of any which has no slash there. -/
theorem prefix_of : ∀ {l s : Text} {r t : Text}, '/' ∉ l → l ++ r = s ++ '/' :: t → ∃ m, s = l ++ m ∧ r = m ++ '/' :: t := by
  intro l
  induction l with
  | nil => intro s r t _ e; exact ⟨s, rfl, e⟩
  | cons c l ih =>
    intro s r t hl e
    cases s with
    | nil =>
      exfalso
      exact hl ((List.cons.inj e).1 ▸ List.mem_cons_self)
    | cons d s =>
      obtain ⟨e1, e2⟩ := List.cons.inj e
      obtain ⟨m, h1, h2⟩ := ih (fun h => hl (List.mem_cons_of_mem _ h)) e2
      exact ⟨m, by rw [e1, h1]; rfl, h2⟩

/-- An authority does not begin with a slash. -/
theorem after_slashes (hK : K.Fine) {sl a rest r : Text} {user : Option Text × Option Text} {h : Host} {port : Option Text}
    (ht : Taken K a user h port) (hs : sl = [] ∨ sl = ['/', '/']) (hr : ∀ c t, rest = c :: t → c = '/' ∨ c = '?' ∨ c = '#')
    (e : sl ++ (a ++ rest) = '/' :: '/' :: r) : authorityOf r = a := by
  obtain ⟨a1, a2, a3, an⟩ := ht.stop hK
  rcases hs with rfl | rfl
  · cases a with
    | nil => exact absurd rfl an
    | cons c a =>
      exfalso
      exact a1 ((List.cons.inj e).1 ▸ List.mem_cons_self)
  · have : a ++ rest = r := (List.cons.inj (List.cons.inj e).2).2
    subst this
    refine takeWhile_all (not_stop a1 a2 a3) ?_
    intro c t h
    rcases hr c t h with rfl | rfl | rfl <;> rfl

/-- C232, of urls for which a host is found: behind a scheme and `//` it is the one of the text up to the next `/`, `?` or `#`, with
its user and port. Missing is that one is found whenever there is such a text. -/
theorem C232_host_partial (hK : K.Fine) {s rest : Text} (hs : SchemeText s) {u : Url} {h : Host}
    (hr : read K (s ++ "://".toList ++ rest) = some u) (hh : u.host = some h) :
    u.scheme = some s ∧ Authority (authorityOf rest) u.user h u.port := by
  obtain ⟨x, sl, a, r, ev, hx, hsl, hrest, user, port, ht, hu, hp⟩ := host_found hK hr hh
  have ev : s ++ ':' :: '/' :: '/' :: rest = x ++ (sl ++ (a ++ r)) := by rw [← ev]; simp
  have sc : ':' ∉ s := fun h => (hs _ h).1 rfl
  rcases hx with ⟨rfl, hsch⟩ | ⟨y, rfl, hsch, y1, y2, yn⟩
  · exfalso
    obtain ⟨a1, a2, a3, an⟩ := ht.stop hK
    have ev : sl ++ (a ++ r) = (s ++ [':']) ++ '/' :: '/' :: rest := by
      rw [List.nil_append] at ev
      rw [← ev]; simp
    rcases hsl with rfl | rfl
    · obtain ⟨i, w, dots, p, e, hw, wn, w0, w1, w2, w3, hi, hpp⟩ := ht.parts
      obtain ⟨m, hm, hm'⟩ := prefix_of (r := r) a1 ev
      -- what is taken is in the scheme with its colon
      have hlast : ∀ c ∈ a, c = ':' ∨ c ∈ s := by
        intro c hc
        have : c ∈ s ++ [':'] := by rw [hm]; exact List.mem_append_left _ hc
        rcases List.mem_append.1 this with h | h
        · exact .inr h
        · exact .inl (List.mem_singleton.1 h)
      have hi0 : i = [] := by
        rcases hi with ⟨h, _⟩ | ⟨n, h, _⟩
        · exact h
        · exfalso
          have : '@' ∈ a := by rw [e, h]; simp
          rcases hlast _ this with h | h
          · exact absurd h (by decide)
          · exact (hs _ h).2.2.2.2.1 rfl
      have wc : ':' ∉ w := by
        rcases hw.shape with h | ⟨y, h, _⟩
        · exact h
        · exfalso
          have : '[' ∈ a := by rw [e, h]; simp
          rcases hlast _ this with h | h
          · exact absurd h (by decide)
          · exact (hs _ h).2.2.2.2.2 rfl
      subst hi0
      have dc : ':' ∉ dots := fun h => absurd (hw.more _ h) (by decide)
      rcases hpp with ⟨rfl, _⟩ | ⟨d, rfl, dn, hd, _⟩
      · have ac : ':' ∉ a := by rw [e]; simp [wc, dc]
        -- then the colon is left
        have : ∃ c t, m = c :: t ∧ (c = ':' ∨ c ∈ s) := by
          cases m with
          | nil =>
            exfalso
            rw [List.append_nil] at hm
            exact ac (by rw [← hm]; simp)
          | cons c t =>
            refine ⟨c, t, rfl, ?_⟩
            have : c ∈ s ++ [':'] := by rw [hm]; simp
            rcases List.mem_append.1 this with h | h
            · exact .inr h
            · exact .inl (List.mem_singleton.1 h)
        obtain ⟨c, t, rfl, hc⟩ := this
        have := hrest c _ hm'
        rcases hc with rfl | hc
        · rcases this with h | h | h <;> exact absurd h (by decide)
        · have := hs c hc
          rcases ‹c = '/' ∨ c = '?' ∨ c = '#'› with h | h | h
          · exact this.2.1 h
          · exact this.2.2.1 h
          · exact this.2.2.2.1 h
      · -- a port is not a slash
        have e' : s ++ ':' :: [] = (w ++ dots) ++ ':' :: (d ++ m) := by
          rw [hm, e]; simp
        obtain ⟨_, h2⟩ := split_colon sc (by simp [wc, dc]) e'
        exact dn (List.append_eq_nil_iff.1 h2.symm).1
    · cases s with
      | nil => exact absurd (List.cons.inj ev).1 (by decide)
      | cons c s => exact (hs c List.mem_cons_self).2.1 (List.cons.inj ev).1.symm
  · have ev : s ++ ':' :: '/' :: '/' :: rest = y ++ ':' :: (sl ++ (a ++ r)) := by rw [ev]; simp
    obtain ⟨h1, h2⟩ := split_colon sc y1 ev
    subst h1
    refine ⟨hsch, ?_⟩
    rw [after_slashes hK ht hsl hrest h2.symm, hu, hp]
    exact ht.authority hK

/-- C232, of references to another host of the same scheme. -/
theorem C232_network_path_partial (hK : K.Fine) {rest : Text} {u : Url} {h : Host} (hr : read K ("//".toList ++ rest) = some u)
    (hh : u.host = some h) : u.scheme = none ∧ Authority (authorityOf rest) u.user h u.port := by
  obtain ⟨x, sl, a, r, ev, hx, hsl, hrest, user, port, ht, hu, hp⟩ := host_found hK hr hh
  rcases hx with ⟨rfl, hsch⟩ | ⟨y, rfl, hsch, y1, y2, yn⟩
  · refine ⟨hsch, ?_⟩
    rw [after_slashes hK ht hsl hrest (r := rest) ev.symm, hu, hp]
    exact ht.authority hK
  · exfalso
    cases y with
    | nil => exact yn rfl
    | cons c y => exact y2 ((List.cons.inj ev).1 ▸ List.mem_cons_self)

example : authorityOf "u:p@a.h.com:80/x@y?z".toList = "u:p@a.h.com:80".toList := by decide

example : (read ascii "http://u:p@a.h.com:80/x@y?z".toList).map (fun u => (u.user, u.host, u.port)) =
    some (some (some ['u'], some ['p']), some (.externalName (some ['a']) (some ['h']) (some "com".toList) false), some 80) := by
  decide +kernel

example : (read ascii "http://good.com:80@evil.com/".toList).map (fun u => (u.user, u.host)) =
    some (some (some "good.com".toList, some "80".toList), some (.externalName none (some "evil".toList) (some "com".toList) false)) := by
  decide +kernel

/-- C232 is violated: names of one label, names with `_`, ports of one digit and the address `0.0.0.0` are no hosts, but the urls are
accepted all the same: they have no host, and what should be it becomes the first part of the path. -/
theorem C232_host_is_path_violated :
    (read ascii "http://server/x".toList).map (fun u => (u.host, u.path)) = some (none, some ["server".toList, ['x']]) ∧
    (read ascii "http://a_b.com/x".toList).map (fun u => (u.host, u.path)) = some (none, some ["a_b.com".toList, ['x']]) ∧
    (read ascii "http://h.com:8/x".toList).map (fun u => (u.host, u.path)) = some (none, some ["h.com:8".toList, ['x']]) ∧
    (read ascii "http://0.0.0.0/x".toList).map (fun u => (u.host, u.path)) = some (none, some ["0.0.0.0".toList, ['x']]) := by
  refine ⟨by decide +kernel, by decide +kernel, by decide +kernel, by decide +kernel⟩

/-- C232 is violated: without `//` there is no authority, but the path of a `mailto` is taken for one. -/
theorem C232_mail_violated :
    (read ascii "mailto:ann@h.com".toList).map (fun u => (u.user, u.host)) =
      some (some (some "ann".toList, none), some (.externalName none (some ['h']) (some "com".toList) false)) := by
  decide +kernel

end Verif.UrlText
