import Verif.Cookie.Model

/-!
# Properties of the cookie jar: where cookies are sent

C54.
-/

namespace Verif.Cookie

/-! ### The specification: RFC 6265, sections 5.1.3, 5.1.4, 5.3 and 5.4 -/

/-- "A string domain-matches a given domain string": they are identical, or the domain is a suffix of the string, the
last character in front of it is a dot, and the string is a host name, not an IP address. -/
def DomainMatch (isIp : Text → Bool) (domain host : Text) : Prop :=
  host = domain ∨ ((∃ front, host = front ++ '.' :: domain) ∧ isIp host = false)

/-- "A request-path path-matches a given cookie-path": they are identical, or the cookie-path is a prefix of the
request-path, and the last character of it is a slash, or the first character behind it is one. -/
def PathMatch (request cookie : Text) : Prop :=
  request = cookie ∨ ∃ rest, request = cookie ++ rest ∧ ((∃ front, cookie = front ++ ['/']) ∨ ∃ more, rest = '/' :: more)

/-- The path of a request; one that does not start with a slash counts as one. -/
def uriPath (path : Text) : Text := if path.head? = some '/' then path else ['/']

/-- The default-path of a response: up to the right-most slash, and a slash if there is nothing in front of it. -/
def IsDefaultPath (path default : Text) : Prop :=
  if path.head? = some '/' then
    ∃ front rest, path = front ++ '/' :: rest ∧ '/' ∉ rest ∧ default = (if front = [] then ['/'] else front)
  else default = ['/']

/-- A cookie, as a host sets it with a response for a path. -/
structure Setting where
  host : Text
  path : Text
  cookie : Cookie

/-- The cookie is for its host only: there is no domain, or one with a dot at its end, which is ignored. -/
def Setting.HostOnly (s : Setting) : Prop := s.cookie.domain = [] ∨ s.cookie.domain.getLast? = some '.'

/-- The domain, without a leading dot. -/
def Setting.domain (s : Setting) : Text := if s.cookie.domain.head? = some '.' then s.cookie.domain.drop 1 else s.cookie.domain

/-- The path of the cookie. -/
def Setting.HasPath (s : Setting) (path : Text) : Prop :=
  if s.cookie.path.head? = some '/' then path = s.cookie.path else IsDefaultPath s.path path

/-- The cookie may go with a request. -/
def Setting.Allows (isIp : Text → Bool) (s : Setting) (request : Request) : Prop :=
  (s.HostOnly → request.host = s.host) ∧
  (¬ s.HostOnly → DomainMatch isIp s.domain s.host ∧ DomainMatch isIp s.domain request.host) ∧
  (∃ path, s.HasPath path ∧ PathMatch (uriPath request.path) path) ∧
  (s.cookie.secure = true → request.secure = true)

/-- The cookies of the responses of a history. -/
def settings (ops : List Op) : List Setting := ops.flatMap fun
  | .update _ (some host) path cookies => cookies.map fun c => ⟨host, path, c⟩
  | _ => []

/-! ### The code against the specification -/

theorem domainsMatch_spec (isIp : Text → Bool) (domain host : Text) (h : domainsMatch isIp domain host = true) :
    DomainMatch isIp domain host := by
  unfold domainsMatch at h
  split at h
  · rename_i e; exact Or.inl e
  · split at h
    · cases h
    · rename_i hs
      have hs : domain.isSuffixOf host = true := by simpa using hs
      obtain ⟨front, hf⟩ := List.isSuffixOf_iff_suffix.mp hs
      dsimp only at h
      by_cases hd : (if domain = [] then [] else host.take (host.length - domain.length)).getLast? = some '.'
      case neg => rw [if_pos hd] at h; cases h
      · rw [if_neg (fun hn => hn hd)] at h
        right
        refine ⟨?_, by simpa using h⟩
        by_cases h0 : domain = []
        · rw [if_pos h0] at hd; cases hd
        · rw [if_neg h0, ← hf] at hd
          simp only [List.length_append, Nat.add_sub_cancel, List.take_left] at hd
          obtain ⟨ys, hys⟩ := List.getLast?_eq_some_iff.mp hd
          exact ⟨ys, by rw [← hf, hys]; simp⟩

theorem domainsMatch_complete (isIp : Text → Bool) (domain host : Text) (h0 : domain ≠ []) (h : DomainMatch isIp domain host) :
    domainsMatch isIp domain host = true := by
  unfold domainsMatch
  split
  · rfl
  · rename_i hne
    rcases h with h | ⟨⟨front, h⟩, hip⟩
    · exact absurd h hne
    · have hs : domain.isSuffixOf host = true := List.isSuffixOf_iff_suffix.mpr ⟨front ++ ['.'], by rw [h]; simp⟩
      rw [if_neg (by simp [hs])]
      dsimp only
      have ht : host.take (host.length - domain.length) = front ++ ['.'] := by
        have : host = (front ++ ['.']) ++ domain := by rw [h]; simp
        rw [this, List.length_append, Nat.add_sub_cancel, List.take_left]
      simp only [ht, hip]
      rw [if_neg (by simp)]
      rfl

theorem uriPath_eq (request : Text) : (if request.head? ≠ some '/' then ['/'] else request) = uriPath request := by
  unfold uriPath
  by_cases h : request.head? = some '/'
  · rw [if_pos h, if_neg (fun hn => hn h)]
  · rw [if_neg h, if_pos h]

theorem pathsMatch_spec (request cookie : Text) : pathsMatch request cookie = true ↔ PathMatch (uriPath request) cookie := by
  unfold pathsMatch
  simp only [uriPath_eq]
  generalize uriPath request = r
  constructor
  · intro h
    split at h
    · rename_i e; exact Or.inl e
    · split at h
      · cases h
      · rename_i hp
        have hp : cookie.isPrefixOf r = true := by simpa using hp
        obtain ⟨rest, hr⟩ := List.isPrefixOf_iff_prefix.mp hp
        right
        refine ⟨rest, hr.symm, ?_⟩
        split at h
        · rename_i hl
          obtain ⟨ys, hys⟩ := List.getLast?_eq_some_iff.mp hl
          exact Or.inl ⟨ys, hys⟩
        · split at h
          · cases h
          · split at h
            · rename_i hslash
              right
              rw [← hr, List.getElem?_append_right (Nat.le_refl _), Nat.sub_self] at hslash
              cases rest with
              | nil => cases hslash
              | cons c rest => simp at hslash; exact ⟨rest, by rw [hslash]⟩
            · cases h
  · rintro (h | ⟨rest, hr, h⟩)
    · rw [if_pos h]
    · by_cases he : r = cookie
      · rw [if_pos he]
      · rw [if_neg he]
        have hp : cookie.isPrefixOf r = true := List.isPrefixOf_iff_prefix.mpr ⟨rest, hr.symm⟩
        rw [if_neg (by simp [hp])]
        rcases h with ⟨front, h⟩ | ⟨more, h⟩
        · rw [if_pos (by rw [h]; simp)]
        · by_cases hl : cookie.getLast? = some '/'
          · rw [if_pos hl]
          · rw [if_neg hl, if_neg, if_pos]
            · rw [hr, List.getElem?_append_right (Nat.le_refl _), Nat.sub_self, h]; rfl
            · rw [hr, h]; simp

theorem reverse_takeWhile_slash (path : Text) (h : '/' ∈ path) :
    ∃ front rest, path = front ++ '/' :: rest ∧ '/' ∉ rest ∧ (path.reverse.takeWhile (· ≠ '/')).length = rest.length := by
  have h1 := List.takeWhile_append_dropWhile (p := (· ≠ '/')) (l := path.reverse)
  cases hd : path.reverse.dropWhile (· ≠ '/') with
  | nil =>
    exfalso
    rw [hd, List.append_nil] at h1
    have hall := List.all_takeWhile (p := (· ≠ '/')) (l := path.reverse)
    rw [h1] at hall
    have := List.all_eq_true.mp hall '/' (by simpa using h)
    simp at this
  | cons c tail =>
    have hc : c = '/' := by
      have := List.head?_dropWhile_not (p := (· ≠ '/')) path.reverse
      rw [hd] at this
      simpa using this
    rw [hd, hc] at h1
    refine ⟨tail.reverse, (path.reverse.takeWhile (· ≠ '/')).reverse, ?_, ?_, by simp⟩
    · have := congrArg List.reverse h1
      rw [List.reverse_reverse, List.reverse_append, List.reverse_cons] at this
      simpa using this.symm
    · intro hm
      rw [List.mem_reverse] at hm
      have hall := List.all_takeWhile (p := (· ≠ '/')) (l := path.reverse)
      have := List.all_eq_true.mp hall '/' hm
      simp at this

theorem defaultPath_spec (path : Text) : IsDefaultPath path (defaultPath path) := by
  unfold IsDefaultPath defaultPath
  by_cases h : path.head? = some '/'
  · rw [if_pos h, if_pos h]
    have hm : '/' ∈ path := List.mem_of_head? h
    obtain ⟨front, rest, h1, h2, h3⟩ := reverse_takeWhile_slash path hm
    refine ⟨front, rest, h1, h2, ?_⟩
    rw [h3]
    have hlen : path.length - 1 - rest.length = front.length := by rw [h1]; simp
    rw [hlen]
    have ht : path.take front.length = front := by rw [h1]; simp
    rw [ht]
    cases front with
    | nil => rfl
    | cons c front =>
      rw [h1] at h
      simp at h
      simp [h]
  · rw [if_neg h, if_neg h]

/-! ### Dictionaries -/

section
variable {κ β : Type} [DecidableEq κ]

theorem mem_dput {l : List (κ × β)} {k : κ} {b : β} {e : κ × β} (h : e ∈ dput l k b) : e ∈ l ∨ e = (k, b) := by
  unfold dput at h
  split at h
  · obtain ⟨e', he', heq⟩ := List.mem_map.mp h
    split at heq
    · exact Or.inr heq.symm
    · exact Or.inl (heq ▸ he')
  · rcases List.mem_append.mp h with h | h
    · exact Or.inl h
    · exact Or.inr (List.mem_singleton.mp h)

/-- Nothing else has the key. -/
theorem mem_dput_key {l : List (κ × β)} {k : κ} {b : β} {e : κ × β} (h : e ∈ dput l k b) (hk : e.1 = k) : e = (k, b) := by
  unfold dput at h
  split at h
  · obtain ⟨e', he', heq⟩ := List.mem_map.mp h
    split at heq
    · exact heq.symm
    · rename_i hne
      subst heq
      exact absurd hk hne
  · rename_i hany
    rcases List.mem_append.mp h with h | h
    · exact absurd (List.any_eq_true.mpr ⟨e, h, by simpa using hk⟩) hany
    · exact List.mem_singleton.mp h

theorem mem_of_dget {l : List (κ × β)} {k : κ} {b : β} (h : dget l k = some b) : (k, b) ∈ l := by
  unfold dget at h
  obtain ⟨e, he, rfl⟩ := Option.map_eq_some_iff.mp h
  have h1 := List.mem_of_find?_eq_some he
  have h2 := List.find?_some he
  simp at h2
  rw [← h2]
  exact h1

end

/-! ### The invariant -/

/-- What is in the jar under a domain and a name comes from a setting. -/
def FromSetting (isIp : Text → Bool) (ss : List Setting) (hostOnly : List (Text × Text)) (domain name : Text) (c : Cookie) : Prop :=
  c.domain = domain ∧ c.name = name ∧ domain ≠ [] ∧ ∃ s ∈ ss, s.cookie.name = name ∧ s.cookie.value = c.value ∧
    s.cookie.secure = c.secure ∧ s.HasPath c.path ∧ (s.HostOnly → domain = s.host ∧ (domain, name) ∈ hostOnly) ∧
    (¬ s.HostOnly → domain = s.domain ∧ DomainMatch isIp s.domain s.host)

def Inv (isIp : Text → Bool) (ss : List Setting) (jar : Jar) : Prop :=
  ∀ e ∈ jar.cookies, ∀ x ∈ e.2, FromSetting isIp ss jar.hostOnly e.1 x.1 x.2

theorem mem_popCookie {cookies : List (Text × List (Text × Cookie))} {k : Text × Text} {e : Text × List (Text × Cookie)}
    (he : e ∈ popCookie cookies k) {x : Text × Cookie} (hx : x ∈ e.2) : (e.1, x.1) ≠ k ∧ ∃ e' ∈ cookies, e'.1 = e.1 ∧ x ∈ e'.2 := by
  unfold popCookie at he
  obtain ⟨e', he', heq⟩ := List.mem_map.mp he
  split at heq
  · rename_i hk
    subst heq
    unfold dpop at hx
    obtain ⟨h1, h2⟩ := List.mem_filter.mp hx
    refine ⟨?_, e', he', rfl, h1⟩
    intro hk'
    rw [← hk'] at h2
    simp at h2
  · rename_i hk
    subst heq
    refine ⟨?_, e', he', rfl, hx⟩
    rintro rfl
    exact hk rfl

theorem mem_popAll {gone : List (Text × Text)} {cookies : List (Text × List (Text × Cookie))} {e : Text × List (Text × Cookie)}
    (he : e ∈ gone.foldl popCookie cookies) {x : Text × Cookie} (hx : x ∈ e.2) :
    (e.1, x.1) ∉ gone ∧ ∃ e' ∈ cookies, e'.1 = e.1 ∧ x ∈ e'.2 := by
  induction gone generalizing cookies with
  | nil => exact ⟨by simp, e, he, rfl, hx⟩
  | cons k gone ih =>
    obtain ⟨h1, e', he', hk, hx'⟩ := ih he
    obtain ⟨h2, e'', he'', hk', hx''⟩ := mem_popCookie he' hx'
    refine ⟨?_, e'', he'', hk'.trans hk, hx''⟩
    rw [List.mem_cons, not_or]
    exact ⟨by rw [← hk]; exact h2, h1⟩

theorem Inv.doExpiration {isIp : Text → Bool} {ss : List Setting} {jar : Jar} (h : Inv isIp ss jar) (now : Int) :
    Inv isIp ss (jar.doExpiration now) := by
  unfold Jar.doExpiration
  split
  · exact h
  · split
    · exact h
    · intro e he x hx
      simp only at he
      obtain ⟨h1, e', he', hk, hx'⟩ := mem_popAll he hx
      obtain ⟨h2, h3, h4, s, hs, h5, h6, h7, h8, h9, h10⟩ := h e' he' x hx'
      rw [hk] at h2 h4 h9 h10
      refine ⟨h2, h3, h4, s, hs, h5, h6, h7, h8, fun ho => ⟨(h9 ho).1, ?_⟩, h10⟩
      exact List.mem_filter.mpr ⟨(h9 ho).2, by simpa using h1⟩

theorem Inv.mono {isIp : Text → Bool} {ss ss' : List Setting} {jar : Jar} (h : Inv isIp ss jar) (hs : ∀ s ∈ ss, s ∈ ss') :
    Inv isIp ss' jar := by
  intro e he x hx
  obtain ⟨h1, h2, h3, s, hsm, h4⟩ := h e he x hx
  exact ⟨h1, h2, h3, s, hs s hsm, h4⟩

theorem expireCookie_cookies (jar : Jar) (t : Int) (k : Text × Text) : (jar.expireCookie t k).cookies = jar.cookies := rfl
theorem expireCookie_hostOnly (jar : Jar) (t : Int) (k : Text × Text) : (jar.expireCookie t k).hostOnly = jar.hostOnly := rfl

theorem Inv.updateOne {isIp : Text → Bool} {ss : List Setting} {jar : Jar} (h : Inv isIp ss jar) (now : Int) (host path : Text)
    (hh : host ≠ []) (hdot : host.head? ≠ some '.') (c : Cookie) (hc : (⟨host, path, c⟩ : Setting) ∈ ss) :
    Inv isIp ss (Jar.updateOne isIp now (some host) path jar c) := by
  -- the jar with the flag
  have hflag : ∀ l : List (Text × Text), (∀ k ∈ jar.hostOnly, k ∈ l) → ∀ e ∈ jar.cookies, ∀ x ∈ e.2, FromSetting isIp ss l e.1 x.1 x.2 := by
    intro l hl e he x hx
    obtain ⟨h1, h2, h3, s, hs, h4, h5, h6, h7, h8, h9⟩ := h e he x hx
    exact ⟨h1, h2, h3, s, hs, h4, h5, h6, h7, fun ho => ⟨(h8 ho).1, hl _ (h8 ho).2⟩, h9⟩
  have hpath : (⟨host, path, c⟩ : Setting).HasPath (if c.path.head? = some '/' then c.path else defaultPath path) := by
    unfold Setting.HasPath
    by_cases hp : c.path.head? = some '/'
    · simp only [if_pos hp]
    · simp only [if_neg hp]
      exact defaultPath_spec path
  -- storing
  have hstore : ∀ (jar' : Jar) (domain : Text) (jar'' : Jar), jar''.cookies = jar'.cookies → jar''.hostOnly = jar'.hostOnly →
      (∀ e ∈ jar'.cookies, ∀ x ∈ e.2, FromSetting isIp ss jar'.hostOnly e.1 x.1 x.2) → domain ≠ [] →
      ((⟨host, path, c⟩ : Setting).HostOnly → domain = host ∧ (domain, c.name) ∈ jar'.hostOnly) →
      (¬ (⟨host, path, c⟩ : Setting).HostOnly → domain = (⟨host, path, c⟩ : Setting).domain ∧
        DomainMatch isIp (⟨host, path, c⟩ : Setting).domain host) →
      Inv isIp ss { jar'' with cookies := dput jar''.cookies domain (dput ((dget jar''.cookies domain).getD []) c.name
        { c with domain := domain, path := if c.path.head? = some '/' then c.path else defaultPath path }) } := by
    intro jar' domain jar'' e1 e2 hj hd hho hnh e he x hx
    simp only at he
    rw [e1] at he
    show FromSetting isIp ss jar''.hostOnly e.1 x.1 x.2
    rw [e2]
    rcases mem_dput he with he | rfl
    · exact hj e he x hx
    · simp only at hx ⊢
      rcases mem_dput hx with hx | rfl
      · cases hg : dget jar'.cookies domain with
        | none => rw [hg] at hx; cases hx
        | some l =>
          rw [hg] at hx
          exact hj _ (mem_of_dget hg) x hx
      · exact ⟨rfl, rfl, hd, _, hc, rfl, rfl, rfl, hpath, hho, hnh⟩
  have hage : ∀ (jar' : Jar) (k : Text × Text), (jar'.expireAttributes now c k).cookies = jar'.cookies ∧
      (jar'.expireAttributes now c k).hostOnly = jar'.hostOnly := by
    intro jar' k
    unfold Jar.expireAttributes
    constructor <;> (split <;> (try split) <;> rfl)
  unfold Jar.updateOne Jar.flag
  simp only [Option.any_some]
  by_cases ho : c.domain = [] ∨ c.domain.getLast? = some '.'
  · -- for the host only
    have hd : (if c.domain.getLast? = some '.' then [] else c.domain) = [] := by
      split
      · rfl
      · rename_i hn
        rcases ho with ho | ho
        · exact ho
        · exact absurd ho hn
    simp only [hd, if_pos]
    simp only [if_neg hdot]
    rw [if_neg]
    · obtain ⟨e1, e2⟩ := hage { jar with hostOnly := if (host, c.name) ∈ jar.hostOnly then jar.hostOnly else jar.hostOnly ++ [(host, c.name)] } (host, c.name)
      refine hstore _ host _ e1 e2 (hflag _ ?_) hh ?_ ?_
      · intro k hk
        simp only
        split
        · exact hk
        · exact List.mem_append_left _ hk
      · intro _
        refine ⟨rfl, ?_⟩
        simp only
        split
        · assumption
        · simp
      · intro hn; exact absurd ho hn
    · simp [domainsMatch]
  · -- with a domain
    have hne : ¬ c.domain = [] := fun e => ho (Or.inl e)
    have hl : ¬ c.domain.getLast? = some '.' := fun e => ho (Or.inr e)
    simp only [if_neg hl, if_neg hne]
    by_cases hm : (decide (host ≠ []) && !domainsMatch isIp (if c.domain.head? = some '.' then c.domain.drop 1 else c.domain) host) = true
    · rw [if_pos hm]
      exact h
    · rw [if_neg hm]
      have hmatch : domainsMatch isIp (if c.domain.head? = some '.' then c.domain.drop 1 else c.domain) host = true := by
        cases hx : domainsMatch isIp (if c.domain.head? = some '.' then c.domain.drop 1 else c.domain) host with
        | true => rfl
        | false => rw [hx] at hm; simp [hh] at hm
      obtain ⟨e1, e2⟩ := hage jar ((if c.domain.head? = some '.' then c.domain.drop 1 else c.domain), c.name)
      refine hstore jar _ _ e1 e2 (hflag _ fun k hk => hk) ?_ (fun hx => absurd hx ho) (fun _ => ⟨rfl, domainsMatch_spec _ _ _ hmatch⟩)
      split
      · rename_i hx
        intro hnil
        cases hcd : c.domain with
        | nil => exact hne hcd
        | cons a t =>
          rw [hcd] at hx hnil
          simp at hx hnil
          rw [hcd, hnil, hx] at hl
          exact hl rfl
      · exact hne

/-- Every update has a host, which does not start with a dot. -/
def HasHosts (ops : List Op) : Prop :=
  ∀ now host path cookies, .update now host path cookies ∈ ops → ∃ h, host = some h ∧ h ≠ [] ∧ h.head? ≠ some '.'

theorem Inv.runAll {isIp : Text → Bool} (ops : List Op) : ∀ {ss : List Setting} {jar : Jar}, Inv isIp ss jar → HasHosts ops →
    Inv isIp (ss ++ settings ops) (jar.runAll isIp ops) := by
  induction ops with
  | nil => intro ss jar h _; simp [settings]; exact h
  | cons op ops ih =>
    intro ss jar h hh
    have hh' : HasHosts ops := fun now host path cookies hm => hh now host path cookies (by simp [hm])
    have key : Inv isIp (ss ++ settings [op]) (jar.step isIp op) := by
      cases op with
      | update now host path cookies =>
        obtain ⟨h', rfl, h1, h2⟩ := hh now host path cookies (by simp)
        simp only [Jar.step, Jar.update]
        have h0 : Inv isIp (ss ++ settings [.update now (some h') path cookies]) jar := h.mono (by simp; intro s hs; exact Or.inl hs)
        by_cases hi : (!jar.acceptIps && isIp h') = true
        · simp only [Option.any_some, if_pos hi]
          exact h0
        · simp only [Option.any_some, if_neg hi]
          apply Inv.doExpiration
          have hall : ∀ c ∈ cookies, (⟨h', path, c⟩ : Setting) ∈ ss ++ settings [.update now (some h') path cookies] := by
            intro c hc
            simp [settings, hc]
          generalize ss ++ settings [.update now (some h') path cookies] = ss' at h0 hall
          clear h hh hh' ih hi
          induction cookies generalizing jar with
          | nil => exact h0
          | cons c cookies ih =>
            rw [List.foldl_cons]
            exact ih (h0.updateOne now h' path h1 h2 c (hall c (by simp))) (fun c hc => hall c (by simp [hc]))
      | clear now =>
        intro e he
        cases he
      | filter now request =>
        simp only [Jar.step, Jar.filter]
        exact ((h.mono (by simp; intro s hs; exact Or.inl hs)).doExpiration now).doExpiration now
    have := ih key hh'
    rw [List.append_assoc] at this
    have e : settings [op] ++ settings ops = settings (op :: ops) := by simp [settings]
    rw [e] at this
    exact this

theorem mem_foldl_dput {cs : List Cookie} : ∀ {d : List (Text × Text)} {e : Text × Text},
    e ∈ cs.foldl (fun d c => dput d c.name c.value) d → e ∈ d ∨ ∃ c ∈ cs, e = (c.name, c.value) := by
  induction cs with
  | nil => intro d e h; exact Or.inl h
  | cons c cs ih =>
    intro d e h
    rcases ih h with h | ⟨c', hc', h⟩
    · rcases mem_dput h with h | h
      · exact Or.inl h
      · exact Or.inr ⟨c, by simp, h⟩
    · exact Or.inr ⟨c', by simp [hc'], h⟩

theorem doExpiration_acceptIps (jar : Jar) (t : Int) : (jar.doExpiration t).acceptIps = jar.acceptIps := by
  unfold Jar.doExpiration
  split
  · rfl
  · split <;> rfl

theorem flag_acceptIps (jar : Jar) (host : Option Text) (name domain : Text) : (jar.flag host name domain).1.acceptIps = jar.acceptIps := by
  unfold Jar.flag
  split
  · split <;> rfl
  · rfl

theorem expireAttributes_acceptIps (jar : Jar) (now : Int) (c : Cookie) (k : Text × Text) :
    (jar.expireAttributes now c k).acceptIps = jar.acceptIps := by
  unfold Jar.expireAttributes
  split <;> (try split) <;> rfl

theorem updateOne_acceptIps (isIp : Text → Bool) (now : Int) (host : Option Text) (path : Text) (jar : Jar) (c : Cookie) :
    (Jar.updateOne isIp now host path jar c).acceptIps = jar.acceptIps := by
  unfold Jar.updateOne
  simp only
  generalize (if c.domain.getLast? = some '.' then [] else c.domain) = d
  generalize (if (jar.flag host c.name d).2.head? = some '.' then (jar.flag host c.name d).2.drop 1 else (jar.flag host c.name d).2) = d'
  split
  · exact flag_acceptIps _ _ _ _
  · exact (expireAttributes_acceptIps _ _ _ _).trans (flag_acceptIps _ _ _ _)

theorem step_acceptIps (isIp : Text → Bool) (jar : Jar) (op : Op) : (jar.step isIp op).acceptIps = jar.acceptIps := by
  cases op with
  | update now host path cookies =>
    simp only [Jar.step, Jar.update]
    split
    · rfl
    · rw [doExpiration_acceptIps]
      induction cookies generalizing jar with
      | nil => rfl
      | cons c cookies ih => rw [List.foldl_cons, ih _ (by rw [updateOne_acceptIps]; assumption), updateOne_acceptIps]
  | clear now => rfl
  | filter now request => simp only [Jar.step, Jar.filter, doExpiration_acceptIps]

theorem runAll_acceptIps (isIp : Text → Bool) (ops : List Op) (jar : Jar) : (jar.runAll isIp ops).acceptIps = jar.acceptIps := by
  induction ops generalizing jar with
  | nil => rfl
  | cons op ops ih => exact (ih (jar.step isIp op)).trans (step_acceptIps isIp jar op)

/-! ## C54: a cookie is only sent where RFC 6265 allows -/

/-- **C54.** In all histories of responses, requests and clearings: what is sent with a request is what a response has set,
and may go with the request by RFC 6265; with a domain it was set by a host that matches it.  Missing: cookies the program
sets without a host. -/
theorem C54_sent_partial (isIp : Text → Bool) (acceptIps : Bool) (start : Int) (ops : List Op) (hh : HasHosts ops) (now : Int)
    (request : Request) :
    ∀ e ∈ (((Jar.new acceptIps start).runAll isIp ops).filter isIp now request).1,
      ∃ s ∈ settings ops, e = (s.cookie.name, s.cookie.value) ∧ s.Allows isIp request := by
  intro e he
  have hinv : Inv isIp (settings ops) ((Jar.new acceptIps start).runAll isIp ops) := by
    have := Inv.runAll (isIp := isIp) ops (ss := []) (jar := Jar.new acceptIps start) (by intro e he; cases he) hh
    simpa using this
  unfold Jar.filter at he
  have hinv := (hinv.doExpiration now).doExpiration now
  generalize ((((Jar.new acceptIps start).runAll isIp ops).doExpiration now).doExpiration now) = jar at he hinv
  simp only at he
  rcases mem_foldl_dput he with h | ⟨c, hc, h⟩
  · cases h
  · obtain ⟨hall, hsend⟩ := List.mem_filter.mp hc
    unfold Jar.all at hall
    obtain ⟨d, hd, hx⟩ := List.mem_flatMap.mp hall
    obtain ⟨x, hxm, rfl⟩ := List.mem_map.mp hx
    obtain ⟨h1, h2, h3, s, hs, h4, h5, h6, h7, h8, h9⟩ := hinv d hd x hxm
    refine ⟨s, hs, by rw [h, h4, h5, h2], ?_⟩
    unfold sends at hsend
    rw [if_neg (by rw [h1]; exact h3)] at hsend
    split at hsend
    · cases hsend
    · split at hsend
      · rename_i hflag
        split at hsend
        · cases hsend
        · rename_i hhost
          have hhost : x.2.domain = request.host := Classical.not_not.mp hhost
          split at hsend
          · cases hsend
          · rename_i hp
            refine ⟨?_, ?_, ⟨_, h7, (pathsMatch_spec _ _).mp (by simpa using hp)⟩, ?_⟩
            · intro ho; rw [← (h8 ho).1, ← h1, hhost]
            · intro ho
              refine ⟨(h9 ho).2, Or.inl ?_⟩
              rw [← (h9 ho).1, ← h1, hhost]
            · intro hsec
              rw [h6] at hsec
              rw [hsec] at hsend
              simpa using hsend
      · rename_i hflag
        split at hsend
        · cases hsend
        · rename_i hdom
          split at hsend
          · cases hsend
          · rename_i hp
            refine ⟨?_, ?_, ⟨_, h7, (pathsMatch_spec _ _).mp (by simpa using hp)⟩, ?_⟩
            · intro ho
              exfalso
              apply hflag
              rw [h1, h2]
              exact (h8 ho).2
            · intro ho
              refine ⟨(h9 ho).2, ?_⟩
              rw [← (h9 ho).1, ← h1]
              exact domainsMatch_spec _ _ _ (by simpa using hdom)
            · intro hsec
              rw [h6] at hsec
              rw [hsec] at hsend
              simpa using hsend

/-- **C54.** Nothing is set by, and no cookie of a host is sent to, an IP address, unless the jar is told to accept those. -/
theorem C54_ip (isIp : Text → Bool) (start : Int) (ops : List Op) (hh : HasHosts ops) (now : Int) (request : Request)
    (hip : isIp request.host = true) : (((Jar.new false start).runAll isIp ops).filter isIp now request).1 = [] := by
  have hinv : Inv isIp (settings ops) ((Jar.new false start).runAll isIp ops) := by
    have := Inv.runAll (isIp := isIp) ops (ss := []) (jar := Jar.new false start) (by intro e he; cases he) hh
    simpa using this
  have ha := runAll_acceptIps isIp ops (Jar.new false start)
  unfold Jar.filter
  have hinv := (hinv.doExpiration now).doExpiration now
  have ha : ((((Jar.new false start).runAll isIp ops).doExpiration now).doExpiration now).acceptIps = false := by
    rw [doExpiration_acceptIps, doExpiration_acceptIps, ha]; rfl
  generalize ((((Jar.new false start).runAll isIp ops).doExpiration now).doExpiration now) = jar at hinv ha
  simp only
  have : jar.all.filter (sends isIp jar request) = [] := by
    rw [List.filter_eq_nil_iff]
    intro c hc
    unfold Jar.all at hc
    obtain ⟨d, hd, hx⟩ := List.mem_flatMap.mp hc
    obtain ⟨x, hxm, rfl⟩ := List.mem_map.mp hx
    obtain ⟨h1, _, h3, _⟩ := hinv d hd x hxm
    unfold sends
    rw [if_neg (by rw [h1]; exact h3), if_pos (by simp [ha, hip])]
    simp
  rw [this]
  rfl

/-- **C54, violated.** A cookie the program sets without a host, marked as secure and for a path of its own, is sent to every
host, for every path, without a secure connection. -/
theorem C54_shared_violated (isIp : Text → Bool) (name value path : Text) (request : Request) :
    (((Jar.new false 0).runAll isIp [.update 0 none [] [{ name, value, path, secure := true }]]).filter isIp 0 request).1 =
      [(name, value)] := by
  simp [Jar.runAll, Jar.step, Jar.flag, Jar.expireAttributes, Jar.new, Jar.update, Jar.updateOne, Jar.doExpiration, Jar.filter, Jar.all, sends, ceilSecond, dput, dget]

/-- A cookie for a domain goes to another host of it, one without a domain does not. -/
example :
    (((Jar.new false 0).runAll (fun _ => false) [.update 0 (some "a.x".toList) "/p/q".toList
        [{ name := ['c'], value := ['1'], domain := ['.', 'x'] }, { name := ['d'], value := ['2'] }]]).filter (fun _ => false) 5
      ⟨"b.x".toList, "/p/r".toList, false⟩).1 = [(['c'], ['1'])] := by decide

end Verif.Cookie
