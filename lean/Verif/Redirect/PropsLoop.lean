import Verif.Redirect.Props

/-!
Properties C105 (the number of redirects), C106 (method and data behind a redirect), C107 (headers of data only with data),
C108 (one length of the data) and C109 (where a redirect leads to).
-/
namespace Verif.Redirect
open Verif.MultiDict

/-! ### C105 -/

/-- C105, the part that holds: if `n` redirects are allowed, at most `n` requests are made (one, if none is allowed); so not more than
`n` redirects are followed.  If it is refused to redirect once more, then `n` requests were made.  What is missing: `C105_violated`,
`C105_negative_violated`. -/
theorem C105_bounded_partial (T : Tables) (second : Bool) (auth) (turns : List Turn) (m : Method) (u : Url) (h : Headers)
    (d : Option Body) (n : Nat) :
    (run T second auth turns m u h d n).1.length ≤ max 1 n ∧
      ((run T second auth turns m u h d n).2 = .raised .tooMany → (run T second auth turns m u h d n).1.length = n) := by
  induction turns generalizing m u h d n with
  | nil => exact ⟨by simp [run], fun e => by simp [run] at e⟩
  | cons t ts ih =>
    rcases run_cons T second auth t ts m u h d n with ⟨h0, e, h1, h2⟩ | ⟨r, hb, hr⟩
    · refine ⟨by rw [h0]; simp, fun h3 => ?_⟩
      rw [h1] at h3
      cases h3
      exfalso
      unfold build at h2
      split at h2
      · cases h2
      · split at h2
        · cases h2
        · split at h2
          · cases h2
          · dsimp only at h2
            split at h2
            · cases h2
            · split at h2
              · rename_i e he
                cases h2
                rw [addContent_eq] at he
                split at he
                · split at he <;> cases he
                · cases he
              · cases h2
    · rcases hr with ⟨h1, h2⟩ | ⟨u0, u', h', hs, hn0, hn1, -, -, -, h1, h2⟩
      · refine ⟨by rw [h1]; simp; omega, fun h3 => ?_⟩
        rw [h1]
        rcases h2 with ⟨h2, -⟩ | ⟨-, -, h2⟩ | ⟨⟨e, h2, h4⟩, -⟩
        · rw [h2] at h3; cases h3
        · simp; omega
        · rw [h4] at h3; cases h3; exact absurd rfl h2
      · have hn : ((n : Int) - 1) = ((n - 1 : Nat) : Int) := by omega
        rw [h1, h2, hn]
        obtain ⟨h3, h4⟩ := ih (if becomesGet t.answer.status m = true then .get else m) u' h'
          (if becomesGet t.answer.status m = true then none else d) (n - 1)
        refine ⟨by simp only [List.length_cons]; omega, fun h5 => ?_⟩
        have := h4 h5
        simp only [List.length_cons]; omega

/-- A server which sends everything elsewhere. -/
def loopTurn : Turn := ⟨[], redirectTo 302 siteA⟩

theorem loop_run (T : Tables) (second : Bool) (rest : List Turn) (k : Nat) (h : Headers) (n : Int) (hn : n < 0 ∨ k < n) :
    ∃ rs h', rs.length = k ∧ run T second none (List.replicate k loopTurn ++ rest) .get siteA h none n =
      (rs ++ (run T second none rest .get siteA h' none (n - k)).1, (run T second none rest .get siteA h' none (n - k)).2) := by
  induction k generalizing h n with
  | zero => exact ⟨[], h, rfl, by simp⟩
  | succ k ih =>
    have hb := build_get (T := T) (u := siteA) rfl rfl h []
    obtain ⟨h', hk⟩ := keep_ok (second := second) (u := siteA) (v := siteA) rfl rfl
      (dropContent (front T siteA ['a'] [] h))
    obtain ⟨rs, h2, hl, he⟩ := ih h' (n - 1) (by omega)
    refine ⟨⟨.get, siteA, dropContent (front T siteA ['a'] [] h), none, false⟩ :: rs, h2, by rw [List.length_cons, hl], ?_⟩
    rw [List.replicate_succ, List.cons_append]
    rw [run_redirect (t := loopTurn) hb (by decide) (by omega) (by omega) rfl (u' := siteA) rfl (h' := h')]
    · show (_ :: (run T second none (List.replicate k loopTurn ++ rest) .get siteA h' none (n - 1)).1,
        (run T second none (List.replicate k loopTurn ++ rest) .get siteA h' none (n - 1)).2) = _
      rw [he]
      have : n - 1 - (k : Int) = n - ((k + 1 : Nat) : Int) := by omega
      rw [this]
      simp only [List.cons_append]
    · exact hk

/-- C105 does not hold: of `k + 1` redirects which are allowed only `k` are followed. -/
theorem C105_violated (T : Tables) (second : Bool) (k : Nat) (h : Headers) :
    (run T second none (List.replicate (k + 1) loopTurn ++ [⟨[], fine⟩]) .get siteA h none ((k + 1 : Nat) : Int)).1.length = k + 1 ∧
    (run T second none (List.replicate (k + 1) loopTurn ++ [⟨[], fine⟩]) .get siteA h none ((k + 1 : Nat) : Int)).2 =
      .raised .tooMany := by
  have hr : List.replicate (k + 1) loopTurn ++ [(⟨[], fine⟩ : Turn)] = List.replicate k loopTurn ++ loopTurn :: [⟨[], fine⟩] := by
    rw [show List.replicate (k + 1) loopTurn = List.replicate k loopTurn ++ [loopTurn] from List.replicate_succ']
    simp
  rw [hr]
  obtain ⟨rs, h', hl, he⟩ := loop_run T second (loopTurn :: [⟨[], fine⟩]) k h ((k + 1 : Nat) : Int) (Or.inr (by omega))
  rw [he, show (((k + 1 : Nat) : Int) - (k : Int)) = 1 by omega]
  have hb := build_get (T := T) (u := siteA) rfl rfl h' []
  have h1 : run T second none (loopTurn :: [⟨[], fine⟩]) .get siteA h' none 1 =
      ([⟨.get, siteA, dropContent (front T siteA ['a'] [] h'), none, false⟩], .raised .tooMany) := by
    rw [run, show build T .get siteA h' none loopTurn.cookies none = _ from hb]
    dsimp only
    rw [if_pos ⟨by decide, by decide⟩, if_pos (by decide)]
  rw [h1]
  simp [hl]

/-- C105 does not hold for negative numbers: there is no end. -/
theorem C105_negative_violated (T : Tables) (second : Bool) (k : Nat) (h : Headers) (n : Int) (hn : n < 0) :
    (run T second none (List.replicate k loopTurn) .get siteA h none n).1.length = k ∧
      (run T second none (List.replicate k loopTurn) .get siteA h none n).2 = .waiting := by
  obtain ⟨rs, h', hl, he⟩ := loop_run T second [] k h n (Or.inl hn)
  rw [List.append_nil] at he
  rw [he]
  simp [run, hl]

example : (run plain false none [loopTurn, ⟨[], fine⟩] .get siteA [] none 2).2 = .returned fine := by decide
example : (run plain false none [loopTurn, loopTurn, ⟨[], fine⟩] .get siteA [] none 2).2 = .raised .tooMany := by decide

/-! ### Requests in a row -/

/-- What the next request has of the one before. -/
theorem run_next (T : Tables) (second : Bool) (auth) (turns : List Turn) (m : Method) (u : Url) (h : Headers) (d : Option Body)
    (n : Int) (i : Nat) (a b : Request) (ha : (run T second auth turns m u h d n).1[i]? = some a)
    (hb : (run T second auth turns m u h d n).1[i + 1]? = some b) :
    ∃ t u0, turns[i]? = some t ∧ redirecting t.answer.status ∧ t.answer.to = some (some u0) ∧ target T a.url u0 = .ok b.url ∧
      b.method = (if becomesGet t.answer.status a.method = true then .get else a.method) ∧
      b.body = (if becomesGet t.answer.status a.method = true then none else a.body) := by
  induction turns generalizing m u h d n i with
  | nil => simp [run] at ha
  | cons t ts ih =>
    rcases run_cons T second auth t ts m u h d n with ⟨h0, -⟩ | ⟨r0, hb0, hr0⟩
    · rw [h0] at ha; simp at ha
    · rcases hr0 with ⟨hr0, -⟩ | ⟨u0, u', h', hs, -, -, hto, htg, hk, hr0, -⟩
      · rw [hr0] at hb; simp at hb
      · rw [hr0] at ha hb
        cases i with
        | succ i =>
          obtain ⟨t', x, h1⟩ := ih _ _ _ _ _ i (by simpa using ha) (by simpa using hb)
          exact ⟨t', x, by simpa using h1⟩
        | zero =>
          have e : r0 = a := by simpa using ha
          subst e
          rw [List.getElem?_cons_succ] at hb
          obtain ⟨e1, e2, -, e3, -⟩ := build_ok hb0
          refine ⟨t, u0, rfl, hs, hto, ?_⟩
          cases ts with
          | nil => simp [run] at hb
          | cons t1 ts =>
            rcases run_cons T second auth t1 ts (if becomesGet t.answer.status m = true then .get else m) u' h'
              (if becomesGet t.answer.status m = true then none else d) (n - 1) with ⟨hx, -⟩ | ⟨r2, hb2, hr2⟩
            · rw [hx] at hb; simp at hb
            · have : r2 = b := by
                rcases hr2 with ⟨hx, -⟩ | ⟨_, _, _, -, -, -, -, -, -, hx, -⟩ <;> (rw [hx] at hb; simpa using hb)
              subst this
              obtain ⟨f1, f2, -, f3, -⟩ := build_ok hb2
              refine ⟨by rw [e2, f2]; exact htg, by rw [f1, e1], ?_⟩
              rw [f3, e3, e1]
              split <;> rfl

/-! ### C106 -/

/-- RFC 9110 15.4: the method behind a redirect, and whether the data is sent again. -/
def redirected (status : Nat) (method : Method) : Method × Bool :=
  if status = 303 then (if method = .head then (.head, true) else (.get, false))
  else if (status = 301 ∨ status = 302) ∧ method = .post then (.get, false)
  else (method, true)

/-- C106: a request behind a redirect has the method of the request before, and its data; but it is a GET request without data behind
"303 See Other" (if it was not a HEAD request), and behind "301 Moved Permanently" and "302 Found" if it was a POST request. -/
theorem C106_method (T : Tables) (second : Bool) (auth) (turns : List Turn) (m : Method) (u : Url) (h : Headers) (d : Option Body)
    (n : Int) (i : Nat) (a b : Request) (ha : (run T second auth turns m u h d n).1[i]? = some a)
    (hb : (run T second auth turns m u h d n).1[i + 1]? = some b) :
    ∃ t, turns[i]? = some t ∧ t.answer.status ∈ [301, 302, 303, 307] ∧ b.method = (redirected t.answer.status a.method).1 ∧
      b.body = if (redirected t.answer.status a.method).2 = true then a.body else none := by
  obtain ⟨t, u0, h1, h2, -, -, h3, h4⟩ := run_next T second auth turns m u h d n i a b ha hb
  refine ⟨t, h1, ?_, ?_, ?_⟩
  · rcases h2 with h2 | h2 | h2 | h2 <;> simp [h2]
  · rw [h3]
    unfold becomesGet redirected
    rcases h2 with h2 | h2 | h2 | h2 <;> rw [h2] <;> by_cases hm : a.method = .head <;> by_cases hp : a.method = .post <;> simp_all
  · rw [h4]
    unfold becomesGet redirected
    rcases h2 with h2 | h2 | h2 | h2 <;> rw [h2] <;> by_cases hm : a.method = .head <;> by_cases hp : a.method = .post <;> simp_all

/-- The first request has the method and the data that were given. -/
theorem C106_first (T : Tables) (second : Bool) (auth) (turns : List Turn) (m : Method) (u : Url) (h : Headers) (d : Option Body)
    (n : Int) (a : Request) (ha : (run T second auth turns m u h d n).1[0]? = some a) :
    a.method = m ∧ a.url = u ∧ (∀ b, d = some b → b.empty = false → a.body = some b) ∧ (d = none → a.body = none) := by
  cases turns with
  | nil => simp [run] at ha
  | cons t ts =>
    rcases run_cons T second auth t ts m u h d n with ⟨h0, -⟩ | ⟨r0, hb0, hr0⟩
    · rw [h0] at ha; simp at ha
    · have : r0 = a := by
        rcases hr0 with ⟨hx, -⟩ | ⟨_, _, _, -, -, -, -, -, -, hx, -⟩ <;> (rw [hx] at ha; simpa using ha)
      subst this
      obtain ⟨h1, h2, -, h3, -⟩ := build_ok hb0
      refine ⟨h1, h2, fun b hb he => ?_, fun hd => ?_⟩
      · rw [h3, hb]; simp [he]
      · rw [h3, hd]; rfl

def someBody : Body := ⟨false, some 3, ['t'], []⟩

example : ((run plain false none [⟨[], redirectTo 307 siteB⟩, ⟨[], redirectTo 302 siteA⟩, ⟨[], fine⟩] .post siteA [] (some someBody) 9).1.map
    fun r => (r.method, r.body)) = [(.post, some someBody), (.post, some someBody), (.get, none)] := by
  with_unfolding_all decide

/-! ### C107, C108 -/

def chunkedText : Text := ['c', 'h', 'u', 'n', 'k', 'e', 'd']

/-- At most one value of each header which describes data, and "chunked" only. -/
structure Plain (h : Headers) : Prop where
  good : Good id h
  single : ∀ k, k.describes = true → (h.values k).length ≤ 1
  coding : h.values .transferEncoding = [] ∨ h.values .transferEncoding = [chunkedText]

theorem front_describes {T : Tables} {u : Url} {h h1 : Headers} {a} (hg : Good id h) (e : authorize T u h a = some h1) (host : Text)
    (c : Cookies) (k : Name) (hk : k.describes = true) : (front T u host c h1).values k = h.values k := by
  have hne : k ≠ .host ∧ k ≠ .cookie ∧ k ≠ .accept ∧ k ≠ .acceptEncoding ∧ k ≠ .authorization := by
    refine ⟨?_, ?_, ?_, ?_, ?_⟩ <;> (intro e; subst e; simp [Name.describes] at hk)
  rw [front_values (authorize_good hg e) _ _ _ _ _ hne.1 hne.2.1 hne.2.2.1 hne.2.2.2.1, authorize_values hg e _ hne.2.2.2.2]

theorem length_single {T : Tables} {body : Body} {h : Headers} (hg : Good id h) (hl : (h.values .contentLength).length ≤ 1) :
    ((lengthPart T body h).1.values .contentLength).length ≤ 1 := by
  unfold lengthPart
  split
  · exact hl
  · split
    · exact hl
    · rename_i hhas
      have := (has_false hg .contentLength).1 (by simpa using hhas)
      split
      · exact hl
      · dsimp only; rw [values_add hg, if_pos rfl, this, addNew_nil]; simp

theorem typePart_single {body : Body} {h : Headers} (hg : Good id h) (k : Name) (hl : (h.values k).length ≤ 1) :
    ((typePart body h).values k).length ≤ 1 := by
  unfold typePart
  have h1 : Good id (if h.has .contentType = true then h else h.add .contentType body.contentType) ∧
      ((if h.has .contentType = true then h else h.add .contentType body.contentType).values k).length ≤ 1 := by
    split
    · exact ⟨hg, hl⟩
    · rename_i hhas
      have := (has_false hg .contentType).1 (by simpa using hhas)
      refine ⟨good_add hg _ _, ?_⟩
      rw [values_add hg]
      split
      · rename_i e; subst e; rw [this, addNew_nil]; simp
      · exact hl
  rcases defaults_values_cases h1.1 body.headers k with h2 | ⟨-, v, h2⟩
  · rw [h2]; exact h1.2
  · rw [h2]; simp

theorem addContent_plain {T : Tables} {body : Body} {h h' : Headers} {c : Bool} (hp : Plain h) (e : addContent T body h = .ok (h', c))
    (hb : ∀ e ∈ body.headers, e.1 ≠ .transferEncoding) : Plain h' := by
  have hg := addContent_good hp.good e
  rw [addContent_eq] at e
  have g1 := good_lengthPart hp.good T body
  have g2 := good_typePart g1 body
  have s1 : ∀ k, k.describes = true → ((lengthPart T body h).1.values k).length ≤ 1 := by
    intro k hk
    by_cases hc : k = .contentLength
    · subst hc; exact length_single hp.good (hp.single _ hk)
    · rw [lengthPart_values hp.good T body k hc]; exact hp.single k hk
  have s2 : ∀ k, k.describes = true → ((typePart body (lengthPart T body h).1).values k).length ≤ 1 :=
    fun k hk => typePart_single g1 k (s1 k hk)
  have t2 : (typePart body (lengthPart T body h).1).values .transferEncoding = h.values .transferEncoding := by
    rw [typePart_values g1 body _ (by simp) (Or.inr hb), lengthPart_values hp.good T body _ (by simp)]
  split at e
  · split at e
    · cases e
    · cases e
      have hv : ((typePart body (lengthPart T body h).1).add .transferEncoding ['c', 'h', 'u', 'n', 'k', 'e', 'd']).values
          .transferEncoding = [chunkedText] := by
        rw [values_add g2, if_pos rfl, t2]
        rcases hp.coding with hc | hc <;> rw [hc] <;> rfl
      refine ⟨hg, fun k hk => ?_, Or.inr hv⟩
      by_cases hc : k = .transferEncoding
      · subst hc; rw [hv]; simp
      · rw [values_add g2, if_neg (fun e => hc e.symm)]; exact s2 k hk
  · cases e
    exact ⟨hg, s2, by rw [t2]; exact hp.coding⟩

theorem build_plain {T : Tables} {m : Method} {u : Url} {h : Headers} {d : Option Body} {c : Cookies} {a} {r : Request}
    (hp : Plain h) (e : build T m u h d c a = .ok r) (hb : ∀ b ∈ d, ∀ e ∈ b.headers, e.1 ≠ .transferEncoding) : Plain r.headers := by
  obtain ⟨-, -, -, hd, host, h1, -, ha, hr⟩ := build_ok e
  have hf := good_front (authorize_good hp.good ha) T u host c
  have hpf : Plain (front T u host c h1) := by
    refine ⟨hf, fun k hk => ?_, ?_⟩
    · rw [front_describes hp.good ha host c k hk]; exact hp.single k hk
    · rw [front_describes hp.good ha host c _ rfl]; exact hp.coding
  rcases hr with ⟨-, hr, -⟩ | ⟨b, hb', hr⟩
  · rw [hr]
    refine ⟨good_dropContent hf, fun k hk => ?_, Or.inl ?_⟩
    · rw [dropContent_values hf, if_pos hk, List.length_tail]; have := hpf.single k hk; omega
    · rw [dropContent_values hf, if_pos (by rfl)]
      rcases hpf.coding with h | h <;> rw [h] <;> rfl
  · refine addContent_plain hpf hr (hb b ?_)
    rw [hb'] at hd
    cases d with
    | none => cases hd
    | some d =>
      rw [Option.filter_some] at hd
      split at hd
      · exact hd.symm
      · cases hd

theorem dropLength_le {h : Headers} (hg : Good id h) (second : Bool) (hl : (h.values .contentLength).length ≤ 1) :
    ((dropLength second h).values .contentLength).length ≤ 1 := by
  unfold dropLength
  split
  · split
    · exact hl
    · split
      · exact hl
      · rw [values_del hg, if_pos rfl, List.length_tail]; omega
  · rw [values_del hg, if_pos rfl, List.length_tail]; omega

theorem keep_plain {h' h : Headers} {second : Bool} {u u' : Url} {b : Bool} (hp : Plain h)
    (hk : keepAuthorization second u u' (if b = true then dropLength second h else h) = .ok h') : Plain h' := by
  have hg2 : Good id (if b = true then dropLength second h else h) := by
    split
    · exact good_dropLength hp.good _
    · exact hp.good
  refine ⟨good_keep hg2 hk, fun k hd => ?_, ?_⟩
  · rw [keep_values hg2 hk _ (by intro e; subst e; simp [Name.describes] at hd)]
    split
    · by_cases hc : k = .contentLength
      · subst hc; exact dropLength_le hp.good _ (hp.single _ hd)
      · rw [dropLength_values hp.good _ _ hc]; exact hp.single k hd
    · exact hp.single k hd
  · rw [keep_values hg2 hk _ (by simp)]
    split
    · rw [dropLength_values hp.good _ _ (by simp)]; exact hp.coding
    · exact hp.coding

/-- Something that holds of every request with plain headers holds of all the requests. -/
theorem run_plain (T : Tables) (second : Bool) (auth) (P : Request → Prop)
    (hP : ∀ m u h d c r, Plain h → build T m u h d c auth = .ok r → (∀ b ∈ d, ∀ e ∈ b.headers, e.1 ≠ .transferEncoding) → P r)
    (turns : List Turn) (m : Method) (u : Url) (h : Headers) (d : Option Body) (n : Int) (hp : Plain h)
    (hb : ∀ b ∈ d, ∀ e ∈ b.headers, e.1 ≠ .transferEncoding) : ∀ r ∈ (run T second auth turns m u h d n).1, P r := by
  induction turns generalizing m u h d n with
  | nil => simp [run]
  | cons t ts ih =>
    rcases run_cons T second auth t ts m u h d n with ⟨h0, -⟩ | ⟨r, hb0, hr⟩
    · rw [h0]; simp
    · have h1 := hP _ _ _ _ _ _ hp hb0 hb
      rcases hr with ⟨hr, -⟩ | ⟨u0, u', h', -, -, -, -, -, hk, hr, -⟩
      · rw [hr]; simpa using h1
      · rw [hr]
        intro x hx
        rcases List.mem_cons.1 hx with hx | hx
        · rw [hx]; exact h1
        · refine ih _ _ _ _ _ (keep_plain (build_plain hp hb0 hb) hk) ?_ x hx
          split
          · simp
          · exact hb

/-- The headers RFC 9110 8 defines for what a message carries, and the framing of RFC 9112 6. -/
def contentNames : List Name := [.contentEncoding, .contentLength, .contentType, .transferEncoding]

/-- C107, the part that holds: if at most one value of each of these headers was given (and of Transfer-Encoding only "chunked"), a
request without data has none of the headers which describe data.  What is missing: `C107_violated`, `C107_two_violated`. -/
theorem C107_content_partial (T : Tables) (second : Bool) (auth) (turns : List Turn) (m : Method) (u : Url) (h : Headers)
    (d : Option Body) (n : Int) (hg : Good id h) (hs : ∀ k ∈ contentNames, (h.values k).length ≤ 1)
    (hc : ∀ v ∈ h.values .transferEncoding, v = chunkedText) (hb : ∀ b ∈ d, ∀ e ∈ b.headers, e.1 ≠ .transferEncoding) :
    ∀ r ∈ (run T second auth turns m u h d n).1, r.body = none → ∀ k ∈ contentNames, r.headers.values k = [] := by
  have hp : Plain h := by
    refine ⟨hg, fun k hk => hs k ?_, ?_⟩
    · cases k <;> simp [Name.describes, contentNames] at hk ⊢
    · have h1 := hs .transferEncoding (by simp [contentNames])
      match hv : h.values .transferEncoding, h1 with
      | [], _ => exact Or.inl rfl
      | [v], _ => right; rw [hc v (by rw [hv]; simp)]
  refine run_plain T second auth _ ?_ turns m u h d n hp hb
  intro m u h d c r hp e hb hn k hk
  obtain ⟨-, -, -, -, host, h1, -, ha, hr⟩ := build_ok e
  rcases hr with ⟨-, hr, -⟩ | ⟨b, hb', hr⟩
  · have hd : k.describes = true := by
      simp only [contentNames, List.mem_cons, List.not_mem_nil, or_false] at hk
      rcases hk with rfl | rfl | rfl | rfl <;> rfl
    rw [hr, dropContent_values (good_front (authorize_good hp.good ha) T u host c), if_pos hd, front_describes hp.good ha host c k hd]
    have := hp.single k hd
    match h.values k, this with
    | [], _ => rfl
    | [_], _ => rfl
  · rw [hn] at hb'; cases hb'

/-- C107 does not hold if a coding was given beside "chunked": behind a redirect, the request without data still says that there is
data, "Transfer-Encoding: chunked". -/
theorem C107_violated : ∃ T : Tables, T.hasChunked ['g', 'z', 'i', 'p', ',', ' ', 'c', 'h', 'u', 'n', 'k', 'e', 'd'] = true ∧
    ((run T false none [⟨[], redirectTo 303 siteA⟩, ⟨[], fine⟩] .post siteA
        [(.transferEncoding, [['g', 'z', 'i', 'p', ',', ' ', 'c', 'h', 'u', 'n', 'k', 'e', 'd']])] (some someBody) 3).1.map
      fun r => (r.method, r.body, r.headers.values .transferEncoding)) =
    [(.post, some someBody, [['g', 'z', 'i', 'p', ',', ' ', 'c', 'h', 'u', 'n', 'k', 'e', 'd'], chunkedText]),
      (.get, none, [chunkedText])] :=
  ⟨{ plain with hasChunked := fun t => decide (t ≠ []) }, by decide, by decide⟩

/-- C107 does not hold if two values were given: only the first one is removed. -/
theorem C107_two_violated (T : Tables) (second : Bool) (u : Url) (host a b : Text) (hh : u.host = some host) (hu : u.user = none)
    (hab : a ≠ b) : ((run T second none [⟨[], fine⟩] .get u [(.contentType, [a, b])] none 3).1.map fun r => (r.body, r.headers.values .contentType)) =
      [(none, [b])] := by
  have hg : Good id ([(.contentType, [a, b])] : Headers) := ⟨by simp, by simpa using hab⟩
  have hb := build_get (T := T) hh hu [(.contentType, [a, b])] []
  rw [run_final (t := ⟨[], fine⟩) hb (by decide)]
  simp only [List.map_cons, List.map_nil]
  rw [dropContent_values (good_front hg T u host []), if_pos (by rfl), front_describes hg (authorize_none hu) host [] _ rfl]
  rfl

/-- C108, the part that holds: if at most one Content-Length, and of Transfer-Encoding only "chunked" was given, a request with data
has either one Content-Length and no Transfer-Encoding, or "Transfer-Encoding: chunked" and no Content-Length.  (Which length:
`C108_length`.)  What is missing: `C108_violated`. -/
theorem C108_framing_partial (T : Tables) (second : Bool) (auth) (turns : List Turn) (m : Method) (u : Url) (h : Headers)
    (d : Option Body) (n : Int) (hg : Good id h) (hs : ∀ k ∈ contentNames, (h.values k).length ≤ 1)
    (hc : ∀ v ∈ h.values .transferEncoding, v = chunkedText) (hb : ∀ b ∈ d, ∀ e ∈ b.headers, e.1 ≠ .transferEncoding)
    (hT : T.hasChunked chunkedText = true) :
    ∀ r ∈ (run T second auth turns m u h d n).1, ∀ b, r.body = some b →
      (r.chunked = false ∧ r.headers.values .transferEncoding = [] ∧ ∃ v, r.headers.values .contentLength = [v]) ∨
      (r.chunked = true ∧ r.headers.values .transferEncoding = [chunkedText] ∧ r.headers.values .contentLength = []) := by
  have hp : Plain h := by
    refine ⟨hg, fun k hk => hs k ?_, ?_⟩
    · cases k <;> simp [Name.describes, contentNames] at hk ⊢
    · have h1 := hs .transferEncoding (by simp [contentNames])
      match hv : h.values .transferEncoding, h1 with
      | [], _ => exact Or.inl rfl
      | [v], _ => right; rw [hc v (by rw [hv]; simp)]
  refine run_plain T second auth _ ?_ turns m u h d n hp hb
  intro m u h d c r hp e hb b hn
  have hpr := build_plain hp e hb
  obtain ⟨-, -, -, hd, host, h1, -, ha, hr⟩ := build_ok e
  rcases hr with ⟨h0, -, -⟩ | ⟨b', hb', hr⟩
  · rw [hn] at h0; cases h0
  · rw [hn] at hb'; cases hb'
    have hbb : ∀ e ∈ b.headers, e.1 ≠ Name.transferEncoding := by
      refine hb b ?_
      rw [hn] at hd
      cases d with
      | none => cases hd
      | some d =>
        rw [Option.filter_some] at hd
        split at hd
        · exact hd.symm
        · cases hd
    have hf := good_front (authorize_good hp.good ha) T u host c
    have hte := front_describes hp.good ha host c .transferEncoding rfl
    have g1 := good_lengthPart hf T b
    have g2 := good_typePart g1 b
    have t2 : (typePart b (lengthPart T b (front T u host c h1)).1).values .transferEncoding = h.values .transferEncoding := by
      rw [typePart_values g1 b _ (by simp) (Or.inr hbb), lengthPart_values hf T b _ (by simp), hte]
    rw [addContent_eq] at hr
    split at hr
    · split at hr
      · cases hr
      · rename_i hhas
        right
        have hr' := Except.ok.inj hr
        have e1 : (typePart b (lengthPart T b (front T u host c h1)).1).add .transferEncoding
          ['c', 'h', 'u', 'n', 'k', 'e', 'd'] = r.headers := congrArg Prod.fst hr'
        have e2 : true = r.chunked := congrArg Prod.snd hr'
        refine ⟨e2.symm, ?_, ?_⟩
        · rw [← e1, values_add g2, if_pos rfl, t2]
          rcases hp.coding with hc | hc <;> rw [hc] <;> rfl
        · rw [← e1, values_add g2, if_neg (by simp)]
          exact (has_false g2 _).1 (by simpa using hhas)
    · rename_i hnc
      left
      have hr' := Except.ok.inj hr
      have e1 : typePart b (lengthPart T b (front T u host c h1)).1 = r.headers := congrArg Prod.fst hr'
      have e2 : false = r.chunked := congrArg Prod.snd hr'
      have hone : (front T u host c h1).one .transferEncoding = (h.values .transferEncoding).head? := by
        unfold Headers.one; rw [hte]
      have hcl : (lengthPart T b (front T u host c h1)).1.values .contentLength ≠ [] ∧ h.values .transferEncoding = [] := by
        unfold lengthPart at hnc ⊢
        rw [hone] at hnc ⊢
        rcases hp.coding with hx | hx
        · refine ⟨?_, hx⟩
          split
          · rename_i hch; rw [if_pos hch] at hnc; simp at hnc
          · rename_i hch
            rw [if_neg hch] at hnc
            split
            · rename_i hhas; exact (has_iff hf _).1 hhas
            · rename_i hhas
              rw [if_neg hhas] at hnc
              split
              · rename_i hsz; rw [hsz] at hnc; simp at hnc
              · dsimp only; rw [values_add hf, if_pos rfl, (has_false hf _).1 (by simpa using hhas), addNew_nil]; simp
        · rw [hx] at hnc
          rw [if_pos (by simp [hT])] at hnc; simp at hnc
      refine ⟨e2.symm, by rw [← e1, t2]; exact hcl.2, ?_⟩
      have hl : r.headers.values .contentLength ≠ [] := by
        rw [← e1, typePart_values g1 b _ (by simp) (Or.inl hcl.1)]; exact hcl.1
      have hle := hpr.single .contentLength rfl
      match hv : r.headers.values .contentLength, hl, hle with
      | [v], _, _ => exact ⟨v, rfl⟩

/-- The content length of the first request, if none was given and the data is not sent in chunks: the size of the data. -/
theorem C108_length (T : Tables) (m : Method) (u : Url) (h : Headers) (b : Body) (c : Cookies) (auth) (r : Request)
    (hg : Good id h) (e : build T m u h (some b) c auth = .ok r) (hn : b.empty = false) (hv : h.values .contentLength = [])
    (hch : r.chunked = false) : ∃ n, b.size = some n ∧ r.headers.values .contentLength = [Nat.toDigits 10 n] := by
  obtain ⟨-, -, -, hd, host, h1, -, ha, hr⟩ := build_ok e
  have hbody : r.body = some b := by rw [hd]; simp [hn]
  rcases hr with ⟨h0, -, -⟩ | ⟨b', hb', hr⟩
  · rw [hbody] at h0; cases h0
  · rw [hbody] at hb'; cases hb'
    have hf := good_front (authorize_good hg ha) T u host c
    have hcl := front_describes hg ha host c .contentLength rfl
    rw [hv] at hcl
    have g1 := good_lengthPart hf T b
    rw [addContent_eq] at hr
    split at hr
    · split at hr
      · cases hr
      · have := congrArg Prod.snd (Except.ok.inj hr)
        rw [hch] at this; cases this
    · rename_i hnc
      have e1 : typePart b (lengthPart T b (front T u host c h1)).1 = r.headers := congrArg Prod.fst (Except.ok.inj hr)
      unfold lengthPart at hnc e1
      split at hnc
      · simp at hnc
      · rename_i hc1
        rw [if_neg hc1] at e1
        split at hnc
        · rename_i hhas; exact absurd hcl ((has_iff hf _).1 hhas)
        · rename_i hhas
          rw [if_neg hhas] at e1
          split at hnc
          · simp at hnc
          · rename_i n hsz
            refine ⟨n, hsz, ?_⟩
            have hvv : ((front T u host c h1).add .contentLength (numberText n)).values .contentLength = [numberText n] := by
              rw [values_add hf, if_pos rfl, hcl, addNew_nil]
            rw [hsz] at e1
            dsimp only at e1
            rw [← e1, typePart_values (good_add hf _ _) b _ (by simp) (Or.inl (by rw [hvv]; simp)), hvv]
            rfl

/-- C108 does not hold if another coding was given: the request has a Content-Length and a Transfer-Encoding, which RFC 9112 6.2
forbids. -/
theorem C108_violated :
    ((run plain false none [⟨[], fine⟩] .post siteA [(.transferEncoding, [['g', 'z', 'i', 'p']])] (some someBody) 3).1.map
      fun r => (r.body, r.headers.values .transferEncoding, r.headers.values .contentLength)) =
    [(some someBody, [['g', 'z', 'i', 'p']], [['3']])] := by
  with_unfolding_all decide

example : ((run plain false none [⟨[], fine⟩] .post siteA [] (some { someBody with size := none }) 3).1.map
      fun r => (r.headers.values .transferEncoding, r.headers.values .contentLength)) = [([chunkedText], [])] := by
  decide

/-! ### C109 -/

/-- C109, the part that holds: a request behind a redirect goes to exactly the url of the Location header (or of the URI header, if
there is no Location header) of the response before, if this is a url with a scheme; the scheme is http or https then.  What is
missing: `C109_violated`. -/
theorem C109_location_partial (T : Tables) (second : Bool) (auth) (turns : List Turn) (m : Method) (u : Url) (h : Headers)
    (d : Option Body) (n : Int) (i : Nat) (a b : Request) (ha : (run T second auth turns m u h d n).1[i]? = some a)
    (hb : (run T second auth turns m u h d n).1[i + 1]? = some b) :
    ∃ t u0, turns[i]? = some t ∧ (t.answer.location = some (some u0) ∨ t.answer.location = none ∧ t.answer.uri = some (some u0)) ∧
      ∃ s, u0.scheme = some s ∧ (s ≠ [] → b.url = u0 ∧ (s = ['h', 't', 't', 'p'] ∨ s = ['h', 't', 't', 'p', 's'])) := by
  obtain ⟨t, u0, h1, -, h2, h3, -⟩ := run_next T second auth turns m u h d n i a b ha hb
  refine ⟨t, u0, h1, ?_, ?_⟩
  · unfold Answer.to at h2
    split at h2
    · rename_i hl; exact Or.inr ⟨hl, h2⟩
    · rename_i hl; left; rw [hl, h2]
  · unfold target at h3
    split at h3
    · cases h3
    · rename_i s hs
      refine ⟨s, hs, fun hne => ?_⟩
      rw [if_neg hne] at h3
      split at h3
      · rename_i hh; exact ⟨(Except.ok.inj h3).symm, hh⟩
      · cases h3

/-- C109 does not hold for a relative reference, which RFC 9110 10.2.2 allows: its scheme is `None`, not `''`, and there is an error
instead of a request. -/
theorem C109_violated (T : Tables) (second : Bool) (host : Text) (u u0 : Url) (hh : u.host = some host) (hu : u.user = none)
    (h0 : u0.scheme = none) (status : Nat) (hs : status ∈ [301, 302, 303, 307]) (ts : List Turn) (h : Headers) (n : Int) (hn : 2 ≤ n) :
    (run T second none (⟨[], redirectTo status u0⟩ :: ts) .get u h none n).1.length = 1 ∧
      (run T second none (⟨[], redirectTo status u0⟩ :: ts) .get u h none n).2 = .raised .scheme := by
  have hb := build_get (T := T) hh hu h []
  have hr : run T second none (⟨[], redirectTo status u0⟩ :: ts) .get u h none n =
      ([⟨.get, u, dropContent (front T u host [] h), none, false⟩], .raised .scheme) := by
    rw [run, hb]
    dsimp only
    rw [if_pos ⟨by simpa [redirectTo] using hs, by omega⟩, if_neg (by omega)]
    simp only [redirectTo, Answer.to]
    have : target T u u0 = .error .scheme := by unfold target; rw [h0]
    rw [this]
  rw [hr]
  exact ⟨rfl, rfl⟩

example : ((run plain false none [⟨[], ⟨302, none, some (some siteB)⟩⟩, ⟨[], fine⟩] .get siteA [] none 3).1.map (·.url)) = [siteA, siteB] := by
  decide

end Verif.Redirect
