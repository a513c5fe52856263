import Verif.UrlText.PropsRound

/-! C234: joining urls. C235: deriving urls. -/
namespace Verif.UrlText

variable {K : Classes}

/-! ### Paths -/

theorem walk_plain : ∀ (l st : List Text), (∀ p ∈ l, p ≠ ".".toList ∧ p ≠ "..".toList) → l.foldl Url.walkStep st = st ++ l := by
  intro l
  induction l with
  | nil => intro st _; simp
  | cons p l ih =>
    intro st h
    have hp := h p List.mem_cons_self
    rw [List.foldl_cons, Url.walkStep_part hp.1 hp.2, ih _ fun q hq => h q (List.mem_cons_of_mem _ hq)]
    simp

/-- A path with no dots in it is normal, unless it is empty. -/
theorem normal_plain {l : List Text} (h : ∀ p ∈ l, p ≠ ".".toList ∧ p ≠ "..".toList) (hne : l ≠ []) : Url.normalizeParts l = .parts l := by
  have hw : Url.walk l = l := by
    have := walk_plain l [] h
    simpa [Url.walk] using this
  have hp : Url.place l = l := by
    unfold Url.place
    rw [if_neg, hw]
    rintro ⟨h1, _⟩
    exact (h _ (List.mem_of_getLast? h1)).1 rfl
  rw [Url.C40_walk, hp, if_neg]
  rintro (h | ⟨h, h'⟩)
  · exact hne h
  · exact h' h

/-! ### C234 -/

/-- The specification, RFC 3986 5.2.2, for references whose paths, if there are any, begin with a slash, as all of these do. -/
inductive Resolved (b r : Url) : Url → Prop where
  | scheme (s : Text) : r.scheme = some s → Resolved b r r
  | host (h : Host) : r.scheme = none → r.host = some h → Resolved b r { r with scheme := b.scheme }
  | path (l : List Text) : r.scheme = none → r.host = none → r.path = some l →
    Resolved b r ⟨b.scheme, b.user, b.host, b.port, some l, r.query, r.fragment⟩
  | query (q : Url.Query) : r.scheme = none → r.host = none → r.path = none → r.query = some q →
    Resolved b r ⟨b.scheme, b.user, b.host, b.port, b.path, some q, r.fragment⟩
  | fragment : r.scheme = none → r.host = none → r.path = none → r.query = none →
    Resolved b r ⟨b.scheme, b.user, b.host, b.port, b.path, b.query, r.fragment⟩

theorem Resolved.unique {b r u v : Url} (h : Resolved b r u) (h' : Resolved b r v) : u = v := by
  cases h <;> cases h' <;> simp_all

/-- C234, part: a reference without a scheme and a host is resolved against a base without a path, unless the reference has neither a path nor a
query and the base has a query. -/
theorem C234_join_partial {b r : Url} (hb : b.path = none) (hs : r.scheme = none) (hh : r.host = none)
    (hq : r.path ≠ none ∨ r.query ≠ none ∨ b.query = none) : Resolved b r (b.join r) := by
  have e : b.join r = ⟨b.scheme, b.user, b.host, b.port, r.path, r.query, r.fragment⟩ := by
    unfold Url.join
    rw [hb]
  rw [e]
  cases hp : r.path with
  | some l => exact .path l hs hh hp
  | none =>
    rw [← hb]
    cases hr : r.query with
    | some q => exact .query q hs hh hp hr
    | none =>
      have : b.query = none := by
        rcases hq with h | h | h
        · exact absurd hp h
        · exact absurd hr h
        · exact h
      rw [← this]
      exact .fragment hs hh hp hr

/-- C234, part: the scheme, the user, the host and the port are those of the base, the query and the fragment those of the other, and the
path is where walking the parts of the base and then those of the other ends. -/
theorem C234_walk_partial (b r : Url) :
    (b.join r).scheme = b.scheme ∧ (b.join r).user = b.user ∧ (b.join r).host = b.host ∧ (b.join r).port = b.port ∧
      (b.join r).query = r.query ∧ (b.join r).fragment = r.fragment ∧
      ∀ l m, b.path = some l → r.path = some m → (∀ p ∈ l ++ m, p ≠ ".".toList ∧ p ≠ "..".toList) → l ≠ [] → (b.join r).path = some (l ++ m) := by
  refine ⟨rfl, rfl, rfl, rfl, rfl, rfl, ?_⟩
  intro l m hl hm hd hne
  unfold Url.join
  rw [hl, hm]
  simp only [normalPath]
  rw [normal_plain hd (by simp [hne])]

/-- C234 is violated: a full url is not taken instead of the base: the host stays that of the base, for all of them. -/
theorem C234_host_violated {b r : Url} {s : Text} (hs : r.scheme = some s) (hh : r.host ≠ b.host) : ¬ Resolved b r (b.join r) := by
  intro h
  have := h.unique (.scheme s hs)
  exact hh (by rw [← this]; rfl)

/-- C234 is violated: the path of a reference is put behind that of the base, whatever it is. -/
theorem C234_path_violated {b r : Url} {l m : List Text} (hl : b.path = some l) (hm : r.path = some m) (hne : l ≠ [])
    (hd : ∀ p ∈ l ++ m, p ≠ ".".toList ∧ p ≠ "..".toList) (hs : r.scheme = none) (hh : r.host = none) : ¬ Resolved b r (b.join r) := by
  intro h
  have h1 := congrArg Url.path (h.unique (.path m hs hh hm))
  rw [(C234_walk_partial b r).2.2.2.2.2.2 l m hl hm hd hne] at h1
  have := congrArg (List.length) (Option.some.inj h1)
  rw [List.length_append] at this
  exact hne (List.length_eq_zero_iff.1 (by omega))

/-- C234 is violated: a reference of a fragment alone takes the query away. -/
theorem C234_query_violated {b r : Url} {q : Url.Query} (hq : b.query = some q) (hs : r.scheme = none) (hh : r.host = none) (hp : r.path = none)
    (hr : r.query = none) : ¬ Resolved b r (b.join r) := by
  intro h
  have h1 := congrArg Url.query (h.unique (.fragment hs hh hp hr))
  have h2 : (b.join r).query = none := hr
  rw [h2, hq] at h1
  cases h1

/-- Reading both, joining and writing. -/
def joined (a b : String) : Option String := do
  let u ← read ascii a.toList
  let v ← read ascii b.toList
  pure (String.ofList (u.join v).text)

example : joined "http://a.com" "/x?y#z" = some "http://a.com/x?y=#z" := by decide +kernel
example : joined "http://a.com/x" "http://b.com/y" = some "http://a.com/x/y" := by decide +kernel
example : joined "http://a.com/x/" "/y" = some "http://a.com/x//y" := by decide +kernel
example : joined "http://a.com/x?q=1" "#f" = some "http://a.com/x#f" := by decide +kernel

/-! ### C235 -/

theorem normalPath_snoc {l : List Text} {n : Text} (hl : ∀ p ∈ l, p ≠ ".".toList ∧ p ≠ "..".toList) (h1 : n ≠ ".".toList) (h2 : n ≠ "..".toList) :
    normalPath (l ++ [n]) = some (l ++ [n]) := by
  unfold normalPath
  rw [normal_plain _ (by simp)]
  intro p hp
  rcases List.mem_append.1 hp with h | h
  · exact hl p h
  · rw [List.mem_singleton.1 h]; exact ⟨h1, h2⟩

/-- No part of the path is `.` or `..`: so it is for all which were read (C40). -/
def NoDots (u : Url) : Prop := ∀ l, u.path = some l → l ≠ [] ∧ ∀ p ∈ l, p ≠ ".".toList ∧ p ≠ "..".toList

theorem parsed_some (p : List Text) : (match Url.normalizeParts p with
    | .indexError => Url.Parsed.raised
    | .nothing => .nothing
    | .parts l => .parts l) ≠ .parts [] := by
  rw [Url.C40_walk]
  split
  · rename_i h
    split at h <;> cases h
  · simp
  · rename_i h
    split at h
    · cases h
    · rename_i hn
      cases h
      intro e
      exact hn (.inl (Url.Parsed.parts.inj e))

/-- What is read has none. -/
theorem C235_read_has_no_dots {v : Text} {u : Url} (h : read K v = some u) : NoDots u := by
  intro l hl
  obtain ⟨g, _, hu⟩ := Option.bind_eq_some_iff.1 h
  unfold ofGroups at hu
  split at hu
  · rename_i path query hp hq
    cases hu
    have hl : path = some l := hl
    subst hl
    unfold pathOf at hp
    split at hp
    · cases hp
    · rename_i t _
      split at hp
      · cases hp
      · cases hp
      · rename_i l' hl'
        cases hp
        refine ⟨?_, Url.C40_parse _ _ _ hl'⟩
        rintro rfl
        unfold Url.parsePath at hl'
        split at hl'
        · cases hl'
        · exact absurd hl' (parsed_some _)
  · cases hu

/-- C235: what is put behind with `/` is the name, and the parent is the url before, but for the query. -/
theorem C235_div {u : Url} (hu : NoDots u) {n : Text} (h1 : n ≠ ".".toList) (h2 : n ≠ "..".toList) :
    (u.div n).name = n ∧ (u.div n).parent = { u with query := none } := by
  obtain ⟨s, us, h, p, path, q, f⟩ := u
  cases path with
  | none =>
    have : normalPath ([] ++ [n]) = some ([] ++ [n]) := normalPath_snoc (fun _ h => (by cases h)) h1 h2
    simp only [Url.div, Option.getD_none, this, Url.name, Url.parent]
    simp
  | some l =>
    obtain ⟨hne, hd⟩ := hu l rfl
    have : normalPath (l ++ [n]) = some (l ++ [n]) := normalPath_snoc hd h1 h2
    simp only [Url.div, Option.getD_some, this, Url.name, Url.parent]
    have hl : ¬ (l ++ [n]).length = 1 := by
      have := List.length_pos_iff.2 hne
      simp
      omega
    rw [if_neg hl]
    simp

/-- C235: the name given is the name, and the parent stays. -/
theorem C235_with_name {u : Url} (hu : NoDots u) {n : Text} (h1 : n ≠ ".".toList) (h2 : n ≠ "..".toList) :
    (u.withName n).name = n ∧ (u.withName n).parent = u.parent := by
  obtain ⟨s, us, h, p, path, q, f⟩ := u
  cases path with
  | none =>
    have : normalPath ([] ++ [n]) = some ([] ++ [n]) := normalPath_snoc (fun _ h => (by cases h)) h1 h2
    simp only [Url.withName, this, Url.name, Url.parent]
    simp
  | some l =>
    obtain ⟨hne, hd⟩ := hu l rfl
    by_cases hl : l.length ≤ 1
    · have e : l.length = 1 := by have := List.length_pos_iff.2 hne; omega
      have : normalPath ([] ++ [n]) = some ([] ++ [n]) := normalPath_snoc (fun _ h => (by cases h)) h1 h2
      simp only [Url.withName, if_pos hl, this, Url.name, Url.parent]
      simp [e]
    · have : normalPath (l.dropLast ++ [n]) = some (l.dropLast ++ [n]) :=
        normalPath_snoc (fun p hp => hd p (List.dropLast_subset l hp)) h1 h2
      simp only [Url.withName, if_neg hl, this, Url.name, Url.parent]
      have e1 : ¬ (l.dropLast ++ [n]).length = 1 := by simp; omega
      have e2 : ¬ l.length = 1 := by omega
      rw [if_neg e1, if_neg e2]
      simp

/-- C235: the host given is written as it was given, but for dots at its end, and nothing else changes. -/
theorem C235_with_host (hK : K.Fine) {u v : Url} {w : Text} (h : u.withHost K w = some v) (hd : ∀ x, w ≠ x ++ ['.', '.']) :
    v.host.map hostText = some w ∧ v = { u with host := v.host } := by
  unfold Url.withHost at h
  split at h
  · cases h
  · split at h
    · obtain ⟨g, hg, rfl⟩ := Option.map_eq_some_iff.1 h
      refine ⟨?_, rfl⟩
      obtain ⟨t, ht, hf⟩ := sound _ _ _ _ (full_eq (hostRp K) w ▸ hg)
      obtain ⟨v, dots, x, _, e2, _⟩ := host_sem hK ht (fun _ _ _ => rfl)
      have e : t.caps = g := by
        unfold fin at hf
        split at hf
        · exact Option.some.inj hf
        · cases hf
      rw [e] at e2
      show (createHost g).map hostText = some w
      rw [e2]
      exact congrArg some (host_text hK hg e2 hd)
    · cases h

/-- C235: the user and the password are set one by one, setting the user keeps the password. -/
theorem C235_with_user {u v w : Url} {n p : Text} (h1 : u.withUser (some n) = some v) (h2 : v.withPassword (some p) = some w) (hn : n ≠ [])
    (hp : p ≠ []) : v = { u with user := some (some n, u.user.bind (·.2)) } ∧ w = { u with user := some (some n, some p) } := by
  by_cases hh : u.host.isSome
  · rw [Url.withUser, if_pos hh] at h1
    cases h1
    rw [Url.withPassword, if_pos (show Option.isSome u.host = true from hh)] at h2
    cases h2
    simp [given, hn, hp, userOf]
  · rw [Url.withUser, if_neg hh] at h1
    cases h1

theorem text_absolute {u : Url} {s : Text} {h : Host} (hs : u.scheme = some s) (hh : u.host = some h) :
    u.text = s ++ [':', '/', '/'] ++ u.authority ++ (u.pathText ++ u.queryText ++ u.fragmentText) := by
  simp only [Url.text, hs, hh, Option.isSome_some, or_true, true_or, ↓reduceIte]
  rw [if_neg]
  · simp
  · intro e
    have : ':' ∈ ['/'] := by
      rw [← e]
      simp
    exact absurd this (by decide)

/-- C235: a url with a scheme, a host and no user is its origin, but for the slash at its end, followed by its relative part. -/
theorem C235_origin_relative {u o r : Url} {s : Text} (ho : u.origin = some o) (hr : u.relative = some r) (hs : u.scheme = some s)
    (hu : u.user = none) (hrt : r.text ≠ []) :
    o.text.getLast? = some '/' ∧ u.text = o.text.dropLast ++ r.text := by
  unfold Url.origin at ho
  unfold Url.relative at hr
  by_cases hh : u.host.isSome
  · rw [if_pos hh] at ho hr
    cases ho
    cases hr
    obtain ⟨h, hh⟩ := Option.isSome_iff_exists.1 hh
    have eo := text_absolute (u := { u with user := none, path := none, query := none, fragment := none }) hs hh
    have ea : Url.authority { u with user := none, path := none, query := none, fragment := none } = u.authority := by
      unfold Url.authority
      rw [hu]
    have ep : Url.pathText { u with user := none, path := none, query := none, fragment := none } ++
        Url.queryText { u with user := none, path := none, query := none, fragment := none } ++
        Url.fragmentText { u with user := none, path := none, query := none, fragment := none } = ['/'] := rfl
    rw [ea, ep] at eo
    have er : Url.text { u with scheme := none, user := none, host := none, port := none } = u.pathText ++ u.queryText ++ u.fragmentText := by
      have e : Url.text { u with scheme := none, user := none, host := none, port := none } =
          if u.pathText ++ u.queryText ++ u.fragmentText = ['/'] then [] else u.pathText ++ u.queryText ++ u.fragmentText := rfl
      rw [e] at hrt ⊢
      split
      · rename_i h
        rw [if_pos h] at hrt
        exact absurd rfl hrt
      · rfl
    rw [eo, er, text_absolute hs hh, List.dropLast_concat]
    exact ⟨List.getLast?_concat, rfl⟩
  · rw [if_neg hh] at ho
    cases ho

example : (read ascii "https://h.com:80/a?b=c#d".toList).bind (fun u => u.origin.map Url.text) = some "https://h.com:80/".toList ∧
    (read ascii "https://h.com:80/a?b=c#d".toList).bind (fun u => u.relative.map Url.text) = some "/a?b=c#d".toList := by
  refine ⟨by decide +kernel, by decide +kernel⟩

example : (read ascii "https://h.com/a".toList).bind (fun u => (u.withHost ascii "[::1]".toList).map Url.text) = some "https://[::1]/a".toList ∧
    (read ascii "https://h.com/a".toList).map (fun u => (u.div ['b']).text) = some "https://h.com/a/b".toList ∧
    (read ascii "https://h.com/a/c".toList).map (fun u => (u.withName ['b']).text) = some "https://h.com/a/b".toList := by
  refine ⟨by decide +kernel, by decide +kernel, by decide +kernel⟩

/-- C235 is violated: the parent is said to be without the query and the fragment, but it keeps the fragment. -/
theorem C235_parent_violated :
    (read ascii "https://h.com/a/b?c=d#e".toList).map (fun u => u.parent.text) = some "https://h.com/a#e".toList := by
  decide +kernel

/-- C235 is violated: `with_name` is said to remove the query and the fragment, but it keeps both; `name` is said to be `None` of urls
without parts, but it is the empty text, as that of a path which ends with a slash. -/
theorem C235_with_name_violated :
    (read ascii "https://h.com/a?b=c#d".toList).map (fun u => (u.withName ['x']).text) = some "https://h.com/x?b=c#d".toList ∧
    (read ascii "https://h.com/".toList).map Url.name = some [] ∧
    (read ascii "https://h.com/a/".toList).map Url.name = some [] := by
  refine ⟨by decide +kernel, by decide +kernel, by decide +kernel⟩

end Verif.UrlText
