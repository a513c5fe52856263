import Verif.Redirect.Lemmas

/-!
Properties C102 (the Host header names the host of the request), C103 (cookies go where the jar lets them go) and C104
(credentials stay with their origin).
-/
namespace Verif.Redirect
open Verif.MultiDict

/-! ### Tables for the examples -/

/-- Cookies written as `name=value;`, no basic authorization. -/
def plain : Tables where
  hasChunked t := decide (t = ['c', 'h', 'u', 'n', 'k', 'e', 'd'])
  load _ := []
  output c := c.flatMap fun e => e.1 ++ ['='] ++ e.2 ++ [';']
  basic user password := some (['B', 'a', 's', 'i', 'c', ' '] ++ user ++ [':'] ++ password)
  join a b := a ++ b

def siteA : Url := ⟨some http, none, some ['a'], none, ['/']⟩
def siteB : Url := ⟨some http, none, some ['b'], none, ['/']⟩

/-- A redirect with status `s` to `u`. -/
def redirectTo (s : Nat) (u : Url) : Answer := ⟨s, some (some u), none⟩

def fine : Answer := ⟨200, none, none⟩

/-! ### C102 -/

/-- RFC 9110 7.2: the host, and the port unless it is the default one of the scheme. -/
def hostText (scheme : Option Text) (host : Text) (port : Option Nat) : Text :=
  let name := (host.reverse.dropWhile fun c => c = '.').reverse
  match port with
  | none => name
  | some n => match scheme with
    | none => name ++ [':'] ++ Nat.toDigits 10 n
    | some s =>
      if (s = ['h', 't', 't', 'p'] ∨ s = ['w', 's']) ∧ n = 80 ∨ (s = ['h', 't', 't', 'p', 's'] ∨ s = ['w', 's', 's']) ∧ n = 443 then name
      else name ++ [':'] ++ Nat.toDigits 10 n

theorem defaultPort_eq (s : Text) : defaultPort s =
    if s = ['h', 't', 't', 'p'] ∨ s = ['w', 's'] then some 80
    else if s = ['h', 't', 't', 'p', 's'] ∨ s = ['w', 's', 's'] then some 443 else none := by
  unfold defaultPort http https
  by_cases h1 : s = ['h', 't', 't', 'p']
  · subst h1; rfl
  · by_cases h2 : s = ['h', 't', 't', 'p', 's']
    · subst h2; rfl
    · by_cases h3 : s = ['w', 's']
      · subst h3; rfl
      · by_cases h4 : s = ['w', 's', 's']
        · subst h4; rfl
        · simp [h1, h2, h3, h4]

theorem location_eq (u : Url) (host : Text) : rstripDots host ++ u.portText = hostText u.scheme host u.port := by
  obtain ⟨scheme, user, h, port, rest⟩ := u
  unfold Url.portText rstripDots hostText
  cases scheme with
  | none => cases port <;> simp [Url.isDefaultPort, Url.portOrDefault, numberText]
  | some s =>
    have hd := defaultPort_eq s
    by_cases h1 : s = ['h', 't', 't', 'p'] ∨ s = ['w', 's']
    · rw [if_pos h1] at hd
      have h2 : ¬ (s = ['h', 't', 't', 'p', 's'] ∨ s = ['w', 's', 's']) := by
        rintro (h | h) <;> rcases h1 with h1 | h1 <;> rw [h] at h1 <;> exact absurd h1 (by decide)
      cases port with
      | none => simp [Url.isDefaultPort, hd]
      | some n =>
        by_cases hn : n = 80
        · simp [Url.isDefaultPort, hd, h1, hn]
        · have : ¬ 80 = n := fun e => hn e.symm
          simp [Url.isDefaultPort, Url.portOrDefault, numberText, hd, h2, hn, this]
    · rw [if_neg h1] at hd
      by_cases h2 : s = ['h', 't', 't', 'p', 's'] ∨ s = ['w', 's', 's']
      · rw [if_pos h2] at hd
        cases port with
        | none => simp [Url.isDefaultPort, hd]
        | some n =>
          by_cases hn : n = 443
          · simp [Url.isDefaultPort, hd, h2, hn]
          · have : ¬ 443 = n := fun e => hn e.symm
            simp [Url.isDefaultPort, Url.portOrDefault, numberText, hd, h1, hn, this]
      · rw [if_neg h2] at hd
        cases port with
        | none => simp [Url.isDefaultPort, Url.portOrDefault, hd]
        | some n => simp [Url.isDefaultPort, Url.portOrDefault, numberText, hd, h1, h2]

theorem front_host {h : Headers} (hg : Good id h) (T : Tables) (u : Url) (host : Text) (c : Cookies) :
    (front T u host c h).values .host = if h.values .host = [] then [hostText u.scheme host u.port] else h.values .host := by
  have hd := good_default (good_default hg .accept ['*', '/', '*']) .acceptEncoding
    ['g', 'z', 'i', 'p', ',', ' ', 'd', 'e', 'f', 'l', 'a', 't', 'e']
  have hv : ((h.default .accept ['*', '/', '*']).default .acceptEncoding
    ['g', 'z', 'i', 'p', ',', ' ', 'd', 'e', 'f', 'l', 'a', 't', 'e']).values .host = h.values .host :=
    default2_values hg _ _ _ (by simp) (by simp)
  unfold front
  rw [addCookies_values (good_addHost hd _ _) _ _ _ (by simp)]
  unfold addHost
  by_cases he : h.values .host = []
  · rw [if_pos he, if_neg (by rw [has_iff hd, hv]; simp [he]), values_add hd, if_pos rfl, hv, he, addNew_nil, location_eq]
  · rw [if_neg he, if_pos (by rw [has_iff hd, hv]; exact he), hv]

theorem build_host {T : Tables} {m : Method} {u : Url} {h : Headers} {d : Option Body} {c : Cookies} {a} {r : Request}
    (hg : Good id h) (e : build T m u h d c a = .ok r) :
    ∃ host, u.host = some host ∧
      r.headers.values .host = if h.values .host = [] then [hostText u.scheme host u.port] else h.values .host := by
  obtain ⟨-, -, -, -, host, h1, hh, ha, hr⟩ := build_ok e
  refine ⟨host, hh, ?_⟩
  have hg1 := authorize_good hg ha
  have hf := good_front hg1 T u host c
  have hv := front_host hg1 T u host c
  rw [authorize_values hg ha _ (by simp)] at hv
  rw [← hv]
  rcases hr with ⟨-, hr, -⟩ | ⟨b, -, hr⟩
  · rw [hr, dropContent_values hf]; rfl
  · refine addContent_values hf hr .host rfl (Or.inl ?_)
    rw [hv]; split <;> simp_all

/-- Once there is a Host header it stays. -/
theorem host_stays (T : Tables) (second : Bool) (auth) (turns : List Turn) (m : Method) (u : Url) (h : Headers) (d : Option Body)
    (n : Int) (hg : Good id h) (hv : h.values .host ≠ []) :
    ∀ r ∈ (run T second auth turns m u h d n).1, r.headers.values .host = h.values .host := by
  induction turns generalizing m u h d n with
  | nil => simp [run]
  | cons t ts ih =>
    rcases run_cons T second auth t ts m u h d n with ⟨h0, -⟩ | ⟨r, hb, hr⟩
    · rw [h0]; simp
    · obtain ⟨host, hh, hv'⟩ := build_host hg hb
      rw [if_neg hv] at hv'
      rcases hr with ⟨hr, -⟩ | ⟨u0, u', h', -, -, -, -, -, hk, hr, -⟩
      · rw [hr]; simpa using hv'
      · rw [hr]
        have hg1 := build_good hg hb
        have hg2 : Good id (if becomesGet t.answer.status m = true then dropLength second r.headers else r.headers) := by
          split
          · exact good_dropLength hg1 _
          · exact hg1
        have h2 : h'.values .host = h.values .host := by
          rw [keep_values hg2 hk _ (by simp)]
          split
          · rw [dropLength_values hg1 _ _ (by simp), hv']
          · exact hv'
        intro x hx
        rcases List.mem_cons.1 hx with hx | hx
        · rw [hx]; exact hv'
        · rw [ih _ u' h' _ _ (good_keep hg2 hk) (by rw [h2]; exact hv) x hx, h2]

/-- What is in the Host header: what was given, or the host of the *first* url. -/
theorem host_first (T : Tables) (second : Bool) (auth) (turns : List Turn) (m : Method) (u : Url) (h : Headers) (d : Option Body)
    (n : Int) (hg : Good id h) (hv : h.values .host = []) (host : Text) (hh : u.host = some host) :
    ∀ r ∈ (run T second auth turns m u h d n).1, r.headers.values .host = [hostText u.scheme host u.port] := by
  cases turns with
  | nil => simp [run]
  | cons t ts =>
    rcases run_cons T second auth t ts m u h d n with ⟨h0, -⟩ | ⟨r, hb, hr⟩
    · rw [h0]; simp
    · obtain ⟨host', hh', hv'⟩ := build_host hg hb
      rw [hh] at hh'; cases hh'
      rw [if_pos hv] at hv'
      rcases hr with ⟨hr, -⟩ | ⟨u0, u', h', -, -, -, -, -, hk, hr, -⟩
      · rw [hr]; simpa using hv'
      · rw [hr]
        have hg1 := build_good hg hb
        have hg2 : Good id (if becomesGet t.answer.status m = true then dropLength second r.headers else r.headers) := by
          split
          · exact good_dropLength hg1 _
          · exact hg1
        have h2 : h'.values .host = [hostText u.scheme host u.port] := by
          rw [keep_values hg2 hk _ (by simp)]
          split
          · rw [dropLength_values hg1 _ _ (by simp), hv']
          · exact hv'
        intro x hx
        rcases List.mem_cons.1 hx with hx | hx
        · rw [hx]; exact hv'
        · rw [host_stays T second auth ts _ u' h' _ _ (good_keep hg2 hk) (by rw [h2]; simp) x hx, h2]

/-- C102, part: a request has exactly one Host header, and it names the host and the port of its url, for the first request, and for
all those behind redirects that have the same host and port.  For the others it does not hold, see `C102_violated`. -/
theorem C102_host_partial (T : Tables) (second : Bool) (auth) (turns : List Turn) (m : Method) (u : Url) (h : Headers)
    (d : Option Body) (n : Int) (hg : Good id h) (hv : h.values .host = []) (host : Text) (hh : u.host = some host)
    (r : Request) (hr : r ∈ (run T second auth turns m u h d n).1) (host' : Text)
    (hsame : hostText r.url.scheme host' r.url.port = hostText u.scheme host u.port) :
    r.headers.values .host = [hostText r.url.scheme host' r.url.port] := by
  rw [hsame]
  exact host_first T second auth turns m u h d n hg hv host hh r hr

/-- The first request is for the url that was given. -/
theorem C102_first (T : Tables) (second : Bool) (auth) (turns : List Turn) (m : Method) (u : Url) (h : Headers)
    (d : Option Body) (n : Int) (hg : Good id h) (hv : h.values .host = []) (r : Request)
    (hr : (run T second auth turns m u h d n).1.head? = some r) :
    r.url = u ∧ ∃ host, u.host = some host ∧ r.headers.values .host = [hostText u.scheme host u.port] := by
  cases turns with
  | nil => simp [run] at hr
  | cons t ts =>
    rcases run_cons T second auth t ts m u h d n with ⟨h0, -⟩ | ⟨r', hb, hr'⟩
    · rw [h0] at hr; cases hr
    · have he : r' = r := by
        rcases hr' with ⟨h1, -⟩ | ⟨u0, u', h', -, -, -, -, -, -, h1, -⟩ <;> (rw [h1] at hr; exact Option.some.inj hr)
      subst he
      obtain ⟨host, hh, hv'⟩ := build_host hg hb
      rw [if_pos hv] at hv'
      exact ⟨(build_ok hb).2.1, host, hh, hv'⟩

/-- C102 does not hold: behind a redirect to another host the Host header still names the first one; for every redirect. -/
theorem C102_violated (T : Tables) (second : Bool) (auth) (turns : List Turn) (m : Method) (u : Url) (h : Headers)
    (d : Option Body) (n : Int) (hg : Good id h) (hv : h.values .host = []) (host : Text) (hh : u.host = some host)
    (r : Request) (hr : r ∈ (run T second auth turns m u h d n).1) (host' : Text)
    (hother : hostText r.url.scheme host' r.url.port ≠ hostText u.scheme host u.port) :
    r.headers.values .host ≠ [hostText r.url.scheme host' r.url.port] := by
  rw [host_first T second auth turns m u h d n hg hv host hh r hr]
  intro e
  exact hother (List.cons.inj e).1.symm

/-- There are such requests: `http://a/` redirects to `http://b/`, which is asked for as host `a`. -/
theorem C102_redirect_violated (second : Bool) :
    ((run plain second none [⟨[], redirectTo 302 siteB⟩, ⟨[], fine⟩] .get siteA [] none 3).1.map
      fun r => (r.url, r.headers.values .host)) = [(siteA, [['a']]), (siteB, [['a']])] := by
  cases second <;> decide

example : hostText (some http) ['a', '.'] (some 8080) = ['a', ':', '8', '0', '8', '0'] ∧
    hostText (some https) ['a'] (some 443) = ['a'] ∧ hostText (some http) ['a'] none = ['a'] := by
  refine ⟨?_, ?_, ?_⟩ <;> decide

/-! ### C103 -/

theorem front_cookie {h : Headers} (hg : Good id h) (T : Tables) (u : Url) (host : Text) (c : Cookies) :
    (front T u host c h).values .cookie =
      if c = [] then h.values .cookie else
        addNew (h.values .cookie).tail (T.output (c.foldl setCookie
          (if (h.one .cookie).getD [] = [] then [] else T.load ((h.one .cookie).getD [])))) := by
  have hd := good_default (good_default hg .accept ['*', '/', '*']) .acceptEncoding
    ['g', 'z', 'i', 'p', ',', ' ', 'd', 'e', 'f', 'l', 'a', 't', 'e']
  have hh := good_addHost hd u host
  have hv : (addHost u host ((h.default .accept ['*', '/', '*']).default .acceptEncoding
    ['g', 'z', 'i', 'p', ',', ' ', 'd', 'e', 'f', 'l', 'a', 't', 'e'])).values .cookie = h.values .cookie := by
    rw [addHost_values hd _ _ _ (by simp)]
    exact default2_values hg _ _ _ (by simp) (by simp)
  have ho : (addHost u host ((h.default .accept ['*', '/', '*']).default .acceptEncoding
    ['g', 'z', 'i', 'p', ',', ' ', 'd', 'e', 'f', 'l', 'a', 't', 'e'])).one .cookie = h.one .cookie := by
    unfold Headers.one; rw [hv]
  unfold front addCookies
  split
  · exact hv
  · dsimp only
    rw [values_add (good_pop hh _), if_pos rfl, values_pop hh, if_pos rfl, hv, ho]

theorem build_cookie {T : Tables} {m : Method} {u : Url} {h : Headers} {d : Option Body} {c : Cookies} {a} {r : Request}
    (hg : Good id h) (e : build T m u h d c a = .ok r) (hb : ∀ b ∈ d, ∀ e ∈ b.headers, e.1 ≠ .cookie) :
    r.headers.values .cookie =
      if c = [] then h.values .cookie else
        addNew (h.values .cookie).tail (T.output (c.foldl setCookie
          (if (h.one .cookie).getD [] = [] then [] else T.load ((h.one .cookie).getD [])))) := by
  obtain ⟨host, h1, -, ha, hv⟩ := build_values hg e .cookie rfl hb
  have hc := authorize_values hg ha .cookie (by simp)
  have ho : h1.one .cookie = h.one .cookie := by unfold Headers.one; rw [hc]
  rw [hv, front_cookie (authorize_good hg ha), hc, ho]

/-- The part of the next round. -/
theorem next_headers {h' : Headers} {r : Request} {second : Bool} {u u' : Url} {b : Bool} (hg : Good id r.headers)
    (hk : keepAuthorization second u u' (if b = true then dropLength second r.headers else r.headers) = .ok h') :
    Good id h' ∧ ∀ k, k ≠ .authorization → k ≠ .contentLength → h'.values k = r.headers.values k := by
  have hg2 : Good id (if b = true then dropLength second r.headers else r.headers) := by
    split
    · exact good_dropLength hg _
    · exact hg
  refine ⟨good_keep hg2 hk, fun k h1 h2 => ?_⟩
  rw [keep_values hg2 hk _ h1]
  split
  · exact dropLength_values hg _ _ h2
  · rfl

/-- C103, part: as long as no cookie was sent before, a request has the cookies the jar gives for it, and no others.  (The headers that
were given have no cookies, nor has the payload.)  Behind a request with cookies it does not hold, see `C103_violated`. -/
theorem C103_cookies_partial (T : Tables) (second : Bool) (auth) (turns : List Turn) (m : Method) (u : Url) (h : Headers)
    (d : Option Body) (n : Int) (hg : Good id h) (hv : h.values .cookie = []) (hb : ∀ b ∈ d, ∀ e ∈ b.headers, e.1 ≠ .cookie)
    (i : Nat) (r : Request) (hr : (run T second auth turns m u h d n).1[i]? = some r) (t : Turn) (ht : turns[i]? = some t)
    (hbefore : ∀ j < i, ∀ t', turns[j]? = some t' → t'.cookies = []) :
    r.headers.values .cookie = if t.cookies = [] then [] else [T.output (t.cookies.foldl setCookie [])] := by
  induction turns generalizing m u h d n i with
  | nil => simp at ht
  | cons t0 ts ih =>
    rcases run_cons T second auth t0 ts m u h d n with ⟨h0, -⟩ | ⟨r0, hb0, hr0⟩
    · rw [h0] at hr; simp at hr
    · have hc := build_cookie hg hb0 hb
      have ho : h.one .cookie = none := by unfold Headers.one; rw [hv]; rfl
      rw [hv, ho] at hc
      cases i with
      | zero =>
        have ht' : t0 = t := by simpa using ht
        subst ht'
        have he : r0 = r := by
          rcases hr0 with ⟨h1, -⟩ | ⟨u0, u', h', -, -, -, -, -, -, h1, -⟩ <;> (rw [h1] at hr; simpa using hr)
        subst he
        rw [hc]
        split
        · rfl
        · simp [addNew_nil]
      | succ i =>
        have hempty : t0.cookies = [] := hbefore 0 (by omega) t0 (by simp)
        rw [if_pos hempty] at hc
        rcases hr0 with ⟨h1, -⟩ | ⟨u0, u', h', -, -, -, -, -, hk, h1, -⟩
        · rw [h1] at hr; simp at hr
        · obtain ⟨hg', hv'⟩ := next_headers (build_good hg hb0) hk
          rw [h1] at hr
          have hd' : ∀ b ∈ (if becomesGet t0.answer.status m = true then none else d), ∀ e ∈ b.headers, e.1 ≠ Name.cookie := by
            split
            · simp
            · exact hb
          exact ih _ u' h' _ _ hg' (by rw [hv' _ (by simp) (by simp), hc]) hd' i (by simpa using hr) (by simpa using ht)
            (fun j hj t' ht' => hbefore (j + 1) (by omega) t' (by simpa using ht'))

/-- C103 does not hold: the cookies of the first host are sent to any host it redirects to, if the jar has none for that one; for all
hosts and cookies. -/
theorem C103_violated (T : Tables) (second : Bool) (a b : Text) (c : Cookies) (hc : c ≠ []) :
    ((run T second none [⟨c, redirectTo 302 ⟨some http, none, some b, none, ['/']⟩⟩, ⟨[], fine⟩] .get
        ⟨some http, none, some a, none, ['/']⟩ [] none 3).1.map
      fun r => (r.url.host, r.headers.values .cookie)) =
    [(some a, [T.output (c.foldl setCookie [])]), (some b, [T.output (c.foldl setCookie [])])] := by
  have hg : Good id ([] : Headers) := Good.nil
  have hb := build_get (T := T) (u := ⟨some http, none, some a, none, ['/']⟩) rfl rfl [] c
  have h1 := build_cookie hg hb (by simp)
  rw [if_neg hc] at h1
  have h1 : (dropContent (front T ⟨some http, none, some a, none, ['/']⟩ a c [])).values .cookie = [T.output (c.foldl setCookie [])] := h1
  obtain ⟨h', hk⟩ := keep_ok (second := second) (u := ⟨some http, none, some a, none, ['/']⟩) (v := ⟨some http, none, some b, none, ['/']⟩)
    rfl rfl (dropContent (front T ⟨some http, none, some a, none, ['/']⟩ a c []))
  rw [run_redirect (t := ⟨c, redirectTo 302 ⟨some http, none, some b, none, ['/']⟩⟩) hb (by simp [redirecting, redirectTo]) (by decide) (by decide) rfl
    (u' := ⟨some http, none, some b, none, ['/']⟩) rfl hk]
  obtain ⟨hg', hv'⟩ := next_headers (b := false) (build_good hg hb) hk
  have hb2 := build_get (T := T) (u := ⟨some http, none, some b, none, ['/']⟩) rfl rfl h' []
  have h2 := build_cookie hg' hb2 (by simp)
  rw [if_pos rfl, hv' _ (by simp) (by simp)] at h2
  have h2 : (dropContent (front T ⟨some http, none, some b, none, ['/']⟩ b [] h')).values .cookie = [T.output (c.foldl setCookie [])] := by
    rw [← h1]; exact h2
  have hr : run T second none [⟨[], fine⟩] .get ⟨some http, none, some b, none, ['/']⟩ h' none (3 - 1) = _ :=
    run_final hb2 (by simp [redirecting, fine])
  rw [show (if becomesGet (redirectTo 302 ⟨some http, none, some b, none, ['/']⟩).status .get = true then Method.get
    else Method.get) = Method.get from by split <;> rfl, show (if becomesGet (redirectTo 302
    ⟨some http, none, some b, none, ['/']⟩).status .get = true then (none : Option Body) else none) = none from by split <;> rfl, hr]
  simp only [List.map_cons, List.map_nil, h1, h2]

example : ((run plain false none [⟨[(['s'], ['1'])], redirectTo 302 siteB⟩, ⟨[], fine⟩] .get siteA [] none 3).1.map
    fun r => (r.url.host, r.headers.values .cookie)) = [(some ['a'], [['s', '=', '1', ';']]), (some ['b'], [['s', '=', '1', ';']])] := by
  decide

example : ((run plain false none [⟨[], redirectTo 302 siteB⟩, ⟨[(['s'], ['1'])], fine⟩] .get siteA [] none 3).1.map
    fun r => (r.url.host, r.headers.values .cookie)) = [(some ['a'], []), (some ['b'], [['s', '=', '1', ';']])] := by
  decide

/-! ### C104 -/

/-- RFC 6454: two urls have the same origin if they have the same scheme, host and port.  (The code takes an explicit default port for
a different one; that is on the safe side.) -/
def SameOrigin (a b : Url) : Prop := a.scheme = b.scheme ∧ a.host = b.host ∧ a.port = b.port

/-- A url as parsed: no colon in the scheme, and none in the host unless it is an IPv6 address in brackets. -/
def Url.Proper (u : Url) : Prop :=
  (∀ s, u.scheme = some s → ':' ∉ s ∧ s ≠ []) ∧ (∀ h, u.host = some h → '/' ∉ h ∧ (':' ∉ h ∨ h.getLast? = some ']'))

theorem append_colon_inj {a b x y : Text} (ha : ':' ∉ a) (hb : ':' ∉ b) (e : a ++ ':' :: x = b ++ ':' :: y) : a = b ∧ x = y := by
  induction a generalizing b with
  | nil =>
    cases b with
    | nil => exact ⟨rfl, (List.cons.inj e).2⟩
    | cons c b => exact absurd (List.mem_cons.2 (Or.inl (List.cons.inj e).1)) hb
  | cons c a ih =>
    cases b with
    | nil => exact absurd (List.mem_cons.2 (Or.inl (List.cons.inj e).1.symm)) ha
    | cons c' b =>
      obtain ⟨h1, h2⟩ := List.cons.inj e
      obtain ⟨h3, h4⟩ := ih (fun h => ha (List.mem_cons_of_mem _ h)) (fun h => hb (List.mem_cons_of_mem _ h)) h2
      exact ⟨by rw [h1, h3], h4⟩

theorem append_colon_inj_back {a b x y : Text} (hx : ':' ∉ x) (hy : ':' ∉ y) (e : a ++ ':' :: x = b ++ ':' :: y) : a = b ∧ x = y := by
  have e' := congrArg List.reverse e
  simp only [List.reverse_append, List.reverse_cons, List.append_assoc, List.singleton_append] at e'
  obtain ⟨h1, h2⟩ := append_colon_inj (by simpa using hx) (by simpa using hy) e'
  exact ⟨List.reverse_inj.1 h2, List.reverse_inj.1 h1⟩

theorem numberText_digit (n : Nat) : ∀ c ∈ numberText n, c.isDigit = true := by
  intro c hc
  exact Nat.isDigit_of_mem_toDigits (by decide) (by decide) hc

theorem numberText_inj {a b : Nat} (e : numberText a = numberText b) : a = b := by
  have h := congrArg (Nat.ofDigitChars 10 · 0) e
  simpa [numberText, Nat.ofDigitChars_toDigits] using h

theorem numberText_no {n : Nat} {c : Char} (h : c.isDigit = false) : c ∉ numberText n := by
  intro hc; rw [numberText_digit n c hc] at h; cases h

/-- Host and port of an origin. -/
theorem hostPort_inj {a b : Text} {p q : Option Nat} (ha : ':' ∉ a ∨ a.getLast? = some ']') (hb : ':' ∉ b ∨ b.getLast? = some ']')
    (e : a ++ (match p with | none => [] | some n => ':' :: numberText n) = b ++ (match q with | none => [] | some n => ':' :: numberText n)) :
    a = b ∧ p = q := by
  have key : ∀ (x y : Text) (n : Nat), (':' ∉ x ∨ x.getLast? = some ']') → x ≠ y ++ ':' :: numberText n := by
    rintro x y n (hx | hx) e
    · exact hx (by rw [e]; simp)
    · rw [e] at hx
      have hne : numberText n ≠ [] := by
        intro h0
        have := @Nat.length_toDigits_pos 10 n
        rw [show Nat.toDigits 10 n = [] from h0] at this
        simp at this
      have h1 : (y ++ ':' :: numberText n).getLast? = (numberText n).getLast? := by
        rw [List.getLast?_append, List.getLast?_cons]
        cases hh : (numberText n).getLast? with
        | none => exact absurd (List.getLast?_eq_none_iff.1 hh) hne
        | some c => simp
      rw [h1] at hx
      exact numberText_no (by decide) (List.mem_of_getLast? hx)
  cases p with
  | none =>
    cases q with
    | none => simpa using e
    | some m => exact absurd (by simpa using e) (key a b m ha)
  | some n =>
    cases q with
    | none => exact absurd (by simpa using e.symm) (key b a n hb)
    | some m =>
      obtain ⟨h1, h2⟩ := append_colon_inj_back (numberText_no (by decide)) (numberText_no (by decide)) e
      exact ⟨h1, by rw [numberText_inj h2]⟩

/-- The texts of two origins with schemes are the same only if the origins are. -/
theorem originText_inj {u v : Url} (hu : u.Proper) (hv : v.Proper) {a b : Text} (ha : u.host = some a) (hb : v.host = some b)
    {s s' : Text} (hs : u.scheme = some s) (hs' : v.scheme = some s') (e : u.originText a = v.originText b) : SameOrigin u v := by
  unfold Url.originText at e
  rw [hs, hs'] at e
  dsimp only at e
  simp only [List.append_assoc, List.cons_append, List.nil_append] at e
  obtain ⟨h1, h2⟩ := append_colon_inj (hu.1 s hs).1 (hv.1 s' hs').1 e
  have h3 := (List.cons.inj (List.cons.inj h2).2).2
  rw [← List.append_assoc, ← List.append_assoc] at h3
  have h4 := List.append_cancel_right h3
  obtain ⟨h5, h6⟩ := hostPort_inj (hu.2 a ha).2 (hv.2 b hb).2 h4
  exact ⟨by rw [hs, hs', h1], by rw [ha, hb, h5], h6⟩

theorem originText_same {u v : Url} (h : SameOrigin u v) (a : Text) : u.originText a = v.originText a := by
  unfold Url.originText
  rw [h.1, h.2.2]

theorem build_authorization {T : Tables} {m : Method} {u : Url} {h : Headers} {d : Option Body} {c : Cookies} {r : Request}
    (hg : Good id h) (e : build T m u h d c none = .ok r) (hb : ∀ b ∈ d, ∀ e ∈ b.headers, e.1 ≠ .authorization)
    (hu : u.user = none) : r.headers.values .authorization = h.values .authorization := by
  obtain ⟨host, h1, -, ha, hv⟩ := build_values hg e .authorization rfl hb
  rw [authorize_none hu] at ha
  cases ha
  rw [hv, front_values hg _ _ _ _ _ (by simp) (by simp) (by simp) (by simp)]

/-- What is left of the authorization: nothing behind a step to another origin. -/
theorem keep_authorization {h h' : Headers} (hg : Good id h) {u v : Url} (e : keepAuthorization false u v h = .ok h')
    (hu : u.Proper) (hv : v.Proper) (hs : u.scheme ≠ none) (hs' : v.scheme ≠ none) (hlen : (h.values .authorization).length ≤ 1) :
    (SameOrigin u v → h'.values .authorization = h.values .authorization) ∧
      (¬ SameOrigin u v → h'.values .authorization = []) := by
  unfold keepAuthorization at e
  rw [if_neg (by simp)] at e
  split at e
  · rename_i a b ha hb
    obtain ⟨s, hs⟩ := Option.ne_none_iff_exists'.1 hs
    obtain ⟨s', hs'⟩ := Option.ne_none_iff_exists'.1 hs'
    cases e
    constructor
    · intro hso
      have : a = b := by have := hso.2.1; rw [ha, hb] at this; exact Option.some.inj this
      subst this
      rw [if_neg (by simp [originText_same hso])]
    · intro hso
      rw [if_pos (fun e => hso (originText_inj hu hv ha hb hs hs' e)), values_del hg, if_pos rfl]
      match h.values .authorization, hlen with
      | [], _ => rfl
      | [_], _ => rfl
  · cases e

theorem dropLength_if {h : Headers} (hg : Good id h) (b second : Bool) :
    Good id (if b = true then dropLength second h else h) ∧ ∀ k, k ≠ .contentLength →
      (if b = true then dropLength second h else h).values k = h.values k := by
  split
  · exact ⟨good_dropLength hg _, fun k hk => dropLength_values hg _ _ hk⟩
  · exact ⟨hg, fun _ _ => rfl⟩

/-- Behind a request without an Authorization header there are none, if no url has a user. -/
theorem authorization_none (T : Tables) (turns : List Turn) (m : Method) (u : Url) (h : Headers)
    (d : Option Body) (n : Int) (hg : Good id h) (hv : h.values .authorization = [])
    (hb : ∀ b ∈ d, ∀ e ∈ b.headers, e.1 ≠ .authorization)
    (hu : ∀ r ∈ (run T false none turns m u h d n).1, r.url.user = none) :
    ∀ r ∈ (run T false none turns m u h d n).1, r.headers.values .authorization = [] := by
  induction turns generalizing m u h d n with
  | nil => simp [run]
  | cons t ts ih =>
    rcases run_cons T false none t ts m u h d n with ⟨h0, -⟩ | ⟨r, hb0, hr⟩
    · rw [h0]; simp
    · have hru := (build_ok hb0).2.1
      have hr0 : r ∈ (run T false none (t :: ts) m u h d n).1 := by
        rcases hr with ⟨h1, -⟩ | ⟨u0, u', h', -, -, -, -, -, -, h1, -⟩ <;> (rw [h1]; simp)
      have h1 := build_authorization hg hb0 hb (by rw [← hru]; exact hu r hr0)
      rw [hv] at h1
      rcases hr with ⟨hr, -⟩ | ⟨u0, u', h', -, -, -, -, -, hk, hr, -⟩
      · rw [hr]; simpa using h1
      · rw [hr]
        rw [hr] at hu
        obtain ⟨hg2, hv2⟩ := dropLength_if (build_good hg hb0) (becomesGet t.answer.status m) false
        have h3 : h'.values .authorization = [] := by
          unfold keepAuthorization at hk
          rw [if_neg (by simp)] at hk
          split at hk
          · cases hk
            split
            · rw [values_del hg2, if_pos rfl, hv2 _ (by simp), h1]; rfl
            · rw [hv2 _ (by simp), h1]
          · cases hk
        intro x hx
        rcases List.mem_cons.1 hx with hx | hx
        · rw [hx]; exact h1
        · refine ih _ u' h' _ _ (good_keep hg2 hk) h3 ?_ (fun r hr => hu r (List.mem_cons_of_mem _ hr)) x hx
          split
          · simp
          · exact hb

/-- The part of C104 that holds: with `request` (and the like, not `request2`), if at most one Authorization header was given and no
url on the way has a user in it, then a request has the header as long as all requests up to it went to the same origin, and no
Authorization header behind a redirect to another origin.  What is missing: `C104_request2_violated`, `C104_two_violated`. -/
theorem C104_origin_partial (T : Tables) (turns : List Turn) (m : Method) (u : Url) (h : Headers)
    (d : Option Body) (n : Int) (hg : Good id h) (hlen : (h.values .authorization).length ≤ 1)
    (hb : ∀ b ∈ d, ∀ e ∈ b.headers, e.1 ≠ .authorization)
    (hu : ∀ r ∈ (run T false none turns m u h d n).1, r.url.user = none ∧ r.url.Proper ∧ r.url.scheme ≠ none)
    (i : Nat) (r : Request) (hr : (run T false none turns m u h d n).1[i]? = some r) :
    ((∀ j < i, ∀ a b, (run T false none turns m u h d n).1[j]? = some a → (run T false none turns m u h d n).1[j + 1]? = some b →
        SameOrigin a.url b.url) → r.headers.values .authorization = h.values .authorization) ∧
    ((∃ j < i, ∃ a b, (run T false none turns m u h d n).1[j]? = some a ∧ (run T false none turns m u h d n).1[j + 1]? = some b ∧
        ¬ SameOrigin a.url b.url) → r.headers.values .authorization = []) := by
  induction turns generalizing m u h d n i with
  | nil => simp [run] at hr
  | cons t ts ih =>
    rcases run_cons T false none t ts m u h d n with ⟨h0, -⟩ | ⟨r0, hb0, hr0⟩
    · rw [h0] at hr; simp at hr
    · have hru := (build_ok hb0).2.1
      have hmem : r0 ∈ (run T false none (t :: ts) m u h d n).1 := by
        rcases hr0 with ⟨h1, -⟩ | ⟨u0, u', h', -, -, -, -, -, -, h1, -⟩ <;> (rw [h1]; simp)
      have hu0 := hu r0 hmem
      have h1 := build_authorization hg hb0 hb (by rw [← hru]; exact hu0.1)
      rcases hr0 with ⟨hr0, -⟩ | ⟨u0, u', h', -, -, -, -, -, hk, hr0, -⟩
      · rw [hr0] at hr ⊢
        cases i with
        | zero =>
          have : r0 = r := by simpa using hr
          subst this
          exact ⟨fun _ => h1, fun ⟨j, hj, _⟩ => absurd hj (by omega)⟩
        | succ i => simp at hr
      · rw [hr0] at hr hu ⊢
        cases i with
        | zero =>
          have : r0 = r := by simpa using hr
          subst this
          exact ⟨fun _ => h1, fun ⟨j, hj, _⟩ => absurd hj (by omega)⟩
        | succ i =>
          have hr : (run T false none ts (if becomesGet t.answer.status m = true then .get else m) u' h'
            (if becomesGet t.answer.status m = true then none else d) (n - 1)).1[i]? = some r := by simpa using hr
          have hu' : ∀ r ∈ (run T false none ts (if becomesGet t.answer.status m = true then .get else m) u' h'
            (if becomesGet t.answer.status m = true then none else d) (n - 1)).1,
            r.url.user = none ∧ r.url.Proper ∧ r.url.scheme ≠ none := fun r hr => hu r (List.mem_cons_of_mem _ hr)
          have hb' : ∀ b ∈ (if becomesGet t.answer.status m = true then none else d), ∀ e ∈ b.headers, e.1 ≠ Name.authorization := by
            split
            · simp
            · exact hb
          -- the next request is the one for `u'`
          obtain ⟨r1, hr1⟩ : ∃ r1, (run T false none ts (if becomesGet t.answer.status m = true then .get else m) u' h'
            (if becomesGet t.answer.status m = true then none else d) (n - 1)).1[0]? = some r1 := by
            cases hl : (run T false none ts (if becomesGet t.answer.status m = true then .get else m) u' h'
              (if becomesGet t.answer.status m = true then none else d) (n - 1)).1 with
            | nil => rw [hl] at hr; simp at hr
            | cons x l => exact ⟨x, rfl⟩
          have hr1u : r1.url = u' := by
            cases ts with
            | nil => simp [run] at hr1
            | cons t1 ts =>
              rcases run_cons T false none t1 ts (if becomesGet t.answer.status m = true then .get else m) u' h'
                (if becomesGet t.answer.status m = true then none else d) (n - 1) with ⟨hx, -⟩ | ⟨r2, hb2, hr2⟩
              · rw [hx] at hr1; simp at hr1
              · have : r2 = r1 := by
                  rcases hr2 with ⟨hx, -⟩ | ⟨_, _, _, -, -, -, -, -, -, hx, -⟩ <;> (rw [hx] at hr1; simpa using hr1)
                subst this
                exact (build_ok hb2).2.1
          have hp1 := hu' r1 (List.mem_of_getElem? hr1)
          obtain ⟨hg2, hv2⟩ := dropLength_if (build_good hg hb0) (becomesGet t.answer.status m) false
          have hka := keep_authorization hg2 hk (by rw [← hru]; exact hu0.2.1) (by rw [← hr1u]; exact hp1.2.1)
            (by rw [← hru]; exact hu0.2.2) (by rw [← hr1u]; exact hp1.2.2) (by rw [hv2 _ (by simp), h1]; exact hlen)
          rw [hv2 _ (by simp), h1] at hka
          have hg3 := good_keep hg2 hk
          constructor
          · intro hall
            have h0 : SameOrigin u u' := by
              have := hall 0 (by omega) r0 r1 (by simp) (by simpa using hr1)
              rwa [hru, hr1u] at this
            have hx := hka.1 h0
            rw [(ih _ u' h' _ _ hg3 (by rw [hx]; exact hlen) hb' hu' i hr).1 (fun j hj a b ha hb => hall (j + 1) (by omega) a b
              (by simpa using ha) (by simpa using hb)), hx]
          · rintro ⟨j, hj, a, b, ha, hb2, hne⟩
            by_cases h0 : SameOrigin u u'
            · have hx := hka.1 h0
              cases j with
              | zero =>
                exfalso
                have e1 : r0 = a := by simpa using ha
                have e2 : r1 = b := by
                  rw [List.getElem?_cons_succ, hr1] at hb2; exact Option.some.inj hb2
                rw [← e1, ← e2, hru, hr1u] at hne
                exact hne h0
              | succ j =>
                exact (ih _ u' h' _ _ hg3 (by rw [hx]; exact hlen) hb' hu' i hr).2 ⟨j, by omega, a, b, by simpa using ha,
                  by simpa using hb2, hne⟩
            · have hx := hka.2 h0
              exact authorization_none T ts _ u' h' _ _ hg3 hx hb' (fun r hr => (hu' r hr).1) r (List.mem_of_getElem? hr)

example : siteA.Proper ∧ ¬ SameOrigin siteA siteB := by
  refine ⟨⟨?_, ?_⟩, ?_⟩
  · intro s hs; cases hs; decide
  · intro h hh; cases hh; decide
  · intro h; exact absurd h.2.1 (by decide)

example : ((run plain false none [⟨[], redirectTo 307 { siteA with rest := ['/', 'x'] }⟩, ⟨[], redirectTo 302 siteB⟩, ⟨[], fine⟩] .get siteA
      [(.authorization, [['k']])] none 9).1.map fun r => (r.url.host, r.headers.values .authorization)) =
    [(some ['a'], [['k']]), (some ['a'], [['k']]), (some ['b'], [])] := by
  decide

/-- C104 does not hold for `request2`: an Authorization header goes to every host there is a redirect to. -/
theorem C104_request2_violated (T : Tables) (a b value : Text) :
    ((run T true none [⟨[], redirectTo 302 ⟨some http, none, some b, none, ['/']⟩⟩, ⟨[], fine⟩] .get
        ⟨some https, none, some a, none, ['/']⟩ [(.authorization, [value])] none 3).1.map
      fun r => (r.url.host, r.headers.values .authorization)) = [(some a, [value]), (some b, [value])] := by
  have hg : Good id ([(.authorization, [value])] : Headers) := ⟨by simp, by simp⟩
  have hb := build_get (T := T) (u := ⟨some https, none, some a, none, ['/']⟩) rfl rfl [(.authorization, [value])] []
  have h1 := build_authorization hg hb (by simp) rfl
  have hk : keepAuthorization true ⟨some https, none, some a, none, ['/']⟩ ⟨some http, none, some b, none, ['/']⟩
    (dropContent (front T ⟨some https, none, some a, none, ['/']⟩ a [] [(.authorization, [value])])) = .ok _ := rfl
  rw [run_redirect (t := ⟨[], redirectTo 302 ⟨some http, none, some b, none, ['/']⟩⟩) hb (by simp [redirecting, redirectTo]) (by decide)
    (by decide) rfl (u' := ⟨some http, none, some b, none, ['/']⟩) rfl hk]
  have hb2 := build_get (T := T) (u := ⟨some http, none, some b, none, ['/']⟩) rfl rfl
    (dropContent (front T ⟨some https, none, some a, none, ['/']⟩ a [] [(.authorization, [value])])) []
  have h2 := build_authorization (build_good hg hb) hb2 (by simp) rfl
  have hr : run T true none [⟨[], fine⟩] .get ⟨some http, none, some b, none, ['/']⟩
    (dropContent (front T ⟨some https, none, some a, none, ['/']⟩ a [] [(.authorization, [value])])) none (3 - 1) = _ :=
    run_final hb2 (by simp [redirecting, fine])
  rw [show (if becomesGet (redirectTo 302 ⟨some http, none, some b, none, ['/']⟩).status .get = true then Method.get
    else Method.get) = Method.get from by split <;> rfl, show (if becomesGet (redirectTo 302
    ⟨some http, none, some b, none, ['/']⟩).status .get = true then (none : Option Body) else none) = none from by split <;> rfl, hr]
  simp only [List.map_cons, List.map_nil]
  have h3 : (dropContent (front T ⟨some https, none, some a, none, ['/']⟩ a [] [(.authorization, [value])])).values .authorization = [value] := h1
  rw [h2, h3]

/-- C104 does not hold for `request` if there are two values, as `del` removes only the first one: the user and the password of the
url are sent to the other host if there was an Authorization header beside them. -/
theorem C104_two_violated :
    ((run plain false none [⟨[], redirectTo 302 siteB⟩, ⟨[], fine⟩] .get { siteA with user := some (some ['u'], some ['p']) }
        [(.authorization, [['k']])] none 3).1.map fun r => (r.url.host, r.headers.values .authorization)) =
    [(some ['a'], [['k'], ['B', 'a', 's', 'i', 'c', ' ', 'u', ':', 'p']]), (some ['b'], [['B', 'a', 's', 'i', 'c', ' ', 'u', ':', 'p']])] := by
  decide

end Verif.Redirect
