import Verif.MultiDict.Props
import Verif.Redirect.Model

/-! What the pieces of `build` do to the values of a header, and the rounds of `run`. -/
namespace Verif.Redirect
open Verif.MultiDict

theorem values_add {h : Headers} (hg : Good id h) (n : Name) (v : Text) (k : Name) :
    (h.add n v).values k = if n = k then addNew (h.values k) v else h.values k :=
  step_vals hg (.set n v) k

theorem values_default {h : Headers} (hg : Good id h) (n : Name) (v : Text) (k : Name) :
    (h.default n v).values k = if n = k ∧ h.values k = [] then [v] else h.values k :=
  step_vals hg (.setdefault n v) k

theorem values_del {h : Headers} (hg : Good id h) (n k : Name) :
    (h.del n).values k = if n = k then (h.values k).tail else h.values k :=
  step_vals hg (.del n) k

theorem values_pop {h : Headers} (hg : Good id h) (n k : Name) :
    (h.pop n).values k = if n = k then (h.values k).tail else h.values k :=
  step_vals hg (.popOne n true) k

theorem good_add {h : Headers} (hg : Good id h) (n : Name) (v : Text) : Good id (h.add n v) := hg.step _
theorem good_default {h : Headers} (hg : Good id h) (n : Name) (v : Text) : Good id (h.default n v) := hg.step _
theorem good_del {h : Headers} (hg : Good id h) (n : Name) : Good id (h.del n) := hg.step _
theorem good_pop {h : Headers} (hg : Good id h) (n : Name) : Good id (h.pop n) := hg.step _

theorem has_iff {h : Headers} (hg : Good id h) (n : Name) : h.has n = true ↔ h.values n ≠ [] := by
  rcases hg.cases_vals n with ⟨h1, h2⟩ | ⟨v, rest, h1, h2⟩
  · have h2 : h.values n = [] := h2
    rw [h2]; simp [Headers.has, h1]
  · have h2 : h.values n = v :: rest := h2
    rw [h2]; simp [Headers.has, h1]

theorem has_false {h : Headers} (hg : Good id h) (n : Name) : h.has n = false ↔ h.values n = [] := by
  have := has_iff hg n
  cases hb : h.has n <;> simp_all

theorem addNew_nil (v : Text) : addNew [] v = [v] := by simp [addNew]

/-! ### The pieces of `build` -/

theorem authorize_good {T : Tables} {u : Url} {h h' : Headers} {a} (hg : Good id h) (e : authorize T u h a = some h') : Good id h' := by
  unfold authorize at e
  dsimp only at e
  split at e
  · cases e; exact hg
  · rename_i name password _
    cases hb : T.basic name password with
    | none => rw [hb] at e; simp at e
    | some v => rw [hb] at e; simp at e; subst e; exact good_add hg _ _

theorem authorize_values {T : Tables} {u : Url} {h h' : Headers} {a} (hg : Good id h) (e : authorize T u h a = some h') (k : Name)
    (hk : k ≠ .authorization) : h'.values k = h.values k := by
  unfold authorize at e
  dsimp only at e
  split at e
  · cases e; rfl
  · rename_i name password _
    cases hb : T.basic name password with
    | none => rw [hb] at e; simp at e
    | some v =>
      rw [hb] at e; simp at e; subst e
      rw [values_add hg, if_neg (fun e => hk e.symm)]

theorem authorize_none {T : Tables} {u : Url} {h : Headers} (hu : u.user = none) : authorize T u h none = some h := by
  unfold authorize
  rw [hu]

/-- The headers in front of the data. -/
def front (T : Tables) (u : Url) (host : Text) (cookies : Cookies) (h : Headers) : Headers :=
  addCookies T cookies (addHost u host ((h.default .accept ['*', '/', '*']).default .acceptEncoding
    ['g', 'z', 'i', 'p', ',', ' ', 'd', 'e', 'f', 'l', 'a', 't', 'e']))

theorem good_addHost {h : Headers} (hg : Good id h) (u : Url) (host : Text) : Good id (addHost u host h) := by
  unfold addHost; split
  · exact hg
  · exact good_add hg _ _

theorem good_addCookies {h : Headers} (hg : Good id h) (T : Tables) (c : Cookies) : Good id (addCookies T c h) := by
  unfold addCookies; split
  · exact hg
  · exact good_add (good_pop hg _) _ _

theorem good_front {h : Headers} (hg : Good id h) (T : Tables) (u : Url) (host : Text) (c : Cookies) : Good id (front T u host c h) :=
  good_addCookies (good_addHost (good_default (good_default hg _ _) _ _) _ _) _ _

theorem addHost_values {h : Headers} (hg : Good id h) (u : Url) (host : Text) (k : Name) (hk : k ≠ .host) :
    (addHost u host h).values k = h.values k := by
  unfold addHost; split
  · rfl
  · rw [values_add hg, if_neg (fun e => hk e.symm)]

theorem addCookies_values {h : Headers} (hg : Good id h) (T : Tables) (c : Cookies) (k : Name) (hk : k ≠ .cookie) :
    (addCookies T c h).values k = h.values k := by
  unfold addCookies; split
  · rfl
  · dsimp only
    rw [values_add (good_pop hg _), if_neg (fun e => hk e.symm), values_pop hg, if_neg (fun e => hk e.symm)]

theorem front_values {h : Headers} (hg : Good id h) (T : Tables) (u : Url) (host : Text) (c : Cookies) (k : Name)
    (h1 : k ≠ .host) (h2 : k ≠ .cookie) (h3 : k ≠ .accept) (h4 : k ≠ .acceptEncoding) : (front T u host c h).values k = h.values k := by
  unfold front
  rw [addCookies_values (good_addHost (good_default (good_default hg _ _) _ _) _ _) _ _ _ h2,
    addHost_values (good_default (good_default hg _ _) _ _) _ _ _ h1, values_default (good_default hg _ _), values_default hg]
  rw [if_neg (fun e => h4 e.1.symm), if_neg (fun e => h3 e.1.symm)]

theorem default2_values {h : Headers} (hg : Good id h) (a b : Text) (k : Name) (h3 : k ≠ .accept) (h4 : k ≠ .acceptEncoding) :
    ((h.default .accept a).default .acceptEncoding b).values k = h.values k := by
  rw [values_default (good_default hg _ _), values_default hg, if_neg (fun e => h4 e.1.symm), if_neg (fun e => h3 e.1.symm)]

theorem good_dropContent {h : Headers} (hg : Good id h) : Good id (dropContent h) :=
  good_del (good_del (good_del (good_del hg _) _) _) _

/-- The headers which describe a payload. -/
def Name.describes : Name → Bool
  | .contentEncoding | .contentLength | .contentType | .transferEncoding => true
  | _ => false

theorem dropContent_values {h : Headers} (hg : Good id h) (k : Name) :
    (dropContent h).values k = if k.describes then (h.values k).tail else h.values k := by
  unfold dropContent
  rw [values_del (good_del (good_del (good_del hg _) _) _), values_del (good_del (good_del hg _) _), values_del (good_del hg _),
    values_del hg]
  cases k <;> simp [Name.describes]

theorem good_defaults {h : Headers} (hg : Good id h) (l : List (Name × Text)) : Good id (l.foldl (fun (h : Headers) e => h.default e.1 e.2) h) := by
  induction l generalizing h with
  | nil => exact hg
  | cons e l ih => exact ih (good_default hg _ _)

theorem defaults_values {h : Headers} (hg : Good id h) (l : List (Name × Text)) (k : Name) (hk : h.values k ≠ [] ∨ ∀ e ∈ l, e.1 ≠ k) :
    (l.foldl (fun h e => h.default e.1 e.2) h).values k = h.values k := by
  induction l generalizing h with
  | nil => rfl
  | cons e l ih =>
    have h1 : (h.default e.1 e.2).values k = h.values k := by
      rw [values_default hg]
      rcases hk with hk | hk
      · rw [if_neg (fun e => hk e.2)]
      · rw [if_neg (fun e' => hk e List.mem_cons_self e'.1)]
    rw [List.foldl_cons, ih (good_default hg _ _), h1]
    rcases hk with hk | hk
    · left; rw [h1]; exact hk
    · right; exact fun e' he' => hk e' (List.mem_cons_of_mem _ he')

theorem defaults_values_cases {h : Headers} (hg : Good id h) (l : List (Name × Text)) (k : Name) :
    (l.foldl (fun h e => h.default e.1 e.2) h).values k = h.values k ∨
      (h.values k = [] ∧ ∃ v, (l.foldl (fun h e => h.default e.1 e.2) h).values k = [v]) := by
  induction l generalizing h with
  | nil => left; rfl
  | cons e l ih =>
    rw [List.foldl_cons]
    by_cases hk : e.1 = k ∧ h.values k = []
    · right
      refine ⟨hk.2, e.2, ?_⟩
      have h1 : (h.default e.1 e.2).values k = [e.2] := by rw [values_default hg, if_pos hk]
      rw [defaults_values (good_default hg _ _) _ _ (Or.inl (by rw [h1]; simp)), h1]
    · have h1 : (h.default e.1 e.2).values k = h.values k := by rw [values_default hg, if_neg hk]
      have := ih (good_default hg e.1 e.2)
      rw [h1] at this
      exact this

/-- The content length, in front of the other headers of the data. -/
def lengthPart (T : Tables) (body : Body) (h : Headers) : Headers × Bool :=
  if (T.hasChunked ((h.one .transferEncoding).getD []) || (h.one .contentEncoding).isSome) = true then (h, true)
  else if h.has .contentLength = true then (h, false)
  else match body.size with
    | none => (h, true)
    | some n => (h.add .contentLength (numberText n), false)

/-- The type and the other headers of the data. -/
def typePart (body : Body) (h : Headers) : Headers :=
  body.headers.foldl (fun h e => h.default e.1 e.2) (if h.has .contentType = true then h else h.add .contentType body.contentType)

theorem addContent_eq (T : Tables) (body : Body) (h : Headers) :
    addContent T body h =
      if (lengthPart T body h).2 = true then
        if (typePart body (lengthPart T body h).1).has .contentLength = true then .error .chunkedLength
        else .ok ((typePart body (lengthPart T body h).1).add .transferEncoding ['c', 'h', 'u', 'n', 'k', 'e', 'd'], true)
      else .ok (typePart body (lengthPart T body h).1, false) := by
  unfold addContent
  rfl

theorem good_lengthPart {h : Headers} (hg : Good id h) (T : Tables) (body : Body) : Good id (lengthPart T body h).1 := by
  unfold lengthPart
  split
  · exact hg
  · split
    · exact hg
    · split
      · exact hg
      · exact good_add hg _ _

theorem lengthPart_values {h : Headers} (hg : Good id h) (T : Tables) (body : Body) (k : Name) (hk : k ≠ .contentLength) :
    (lengthPart T body h).1.values k = h.values k := by
  unfold lengthPart
  split
  · rfl
  · split
    · rfl
    · split
      · rfl
      · dsimp only; rw [values_add hg, if_neg (fun e => hk e.symm)]

theorem good_typePart {h : Headers} (hg : Good id h) (body : Body) : Good id (typePart body h) := by
  unfold typePart
  apply good_defaults
  split
  · exact hg
  · exact good_add hg _ _

theorem typePart_values {h : Headers} (hg : Good id h) (body : Body) (k : Name) (hk : k ≠ .contentType)
    (hb : h.values k ≠ [] ∨ ∀ e ∈ body.headers, e.1 ≠ k) : (typePart body h).values k = h.values k := by
  unfold typePart
  split
  · exact defaults_values hg _ _ hb
  · have h1 : (h.add .contentType body.contentType).values k = h.values k := by rw [values_add hg, if_neg (fun e => hk e.symm)]
    rw [defaults_values (good_add hg _ _) _ _ (by rw [h1]; exact hb), h1]

theorem addContent_good {T : Tables} {body : Body} {h h' : Headers} {c : Bool} (hg : Good id h) (e : addContent T body h = .ok (h', c)) :
    Good id h' := by
  rw [addContent_eq] at e
  have h1 := good_typePart (good_lengthPart hg T body) body
  split at e
  · split at e
    · cases e
    · cases e; exact good_add h1 _ _
  · cases e; exact h1

theorem addContent_values {T : Tables} {body : Body} {h h' : Headers} {c : Bool} (hg : Good id h) (e : addContent T body h = .ok (h', c))
    (k : Name) (hk : k.describes = false) (hb : h.values k ≠ [] ∨ ∀ e ∈ body.headers, e.1 ≠ k) : h'.values k = h.values k := by
  rw [addContent_eq] at e
  have hc : k ≠ .contentLength ∧ k ≠ .contentType ∧ k ≠ .transferEncoding := by
    refine ⟨?_, ?_, ?_⟩ <;> (intro e; subst e; simp [Name.describes] at hk)
  have h1 := good_lengthPart hg T body
  have h2 : (typePart body (lengthPart T body h).1).values k = h.values k := by
    have h3 := lengthPart_values hg T body k hc.1
    rw [typePart_values h1 body k hc.2.1 (by rw [h3]; exact hb), h3]
  split at e
  · split at e
    · cases e
    · cases e
      rw [values_add (good_typePart h1 body), if_neg (fun e => hc.2.2 e.symm), h2]
  · cases e; exact h2

/-! ### `build` -/

/-- What there is to know of a request that was made. -/
theorem build_ok {T : Tables} {m : Method} {u : Url} {h : Headers} {d : Option Body} {c : Cookies} {a} {r : Request}
    (e : build T m u h d c a = .ok r) :
    r.method = m ∧ r.url = u ∧ m ≠ .connect ∧ r.body = d.filter (fun b => !b.empty) ∧
      ∃ host h1, u.host = some host ∧ authorize T u h a = some h1 ∧
        ((r.body = none ∧ r.headers = dropContent (front T u host c h1) ∧ r.chunked = false) ∨
          ∃ b, r.body = some b ∧ addContent T b (front T u host c h1) = .ok (r.headers, r.chunked)) := by
  unfold build at e
  split at e
  · cases e
  · rename_i host hh
    split at e
    · cases e
    · rename_i hm
      split at e
      · cases e
      · rename_i h1 ha
        dsimp only at e
        split at e
        · rename_i hd
          cases e
          exact ⟨rfl, rfl, hm, hd.symm, host, h1, hh, ha, Or.inl ⟨rfl, rfl, rfl⟩⟩
        · rename_i b hd
          split at e
          · cases e
          · rename_i h2 ch hc
            cases e
            exact ⟨rfl, rfl, hm, hd.symm, host, h1, hh, ha, Or.inr ⟨b, rfl, hc⟩⟩

theorem build_good {T : Tables} {m : Method} {u : Url} {h : Headers} {d : Option Body} {c : Cookies} {a} {r : Request}
    (hg : Good id h) (e : build T m u h d c a = .ok r) : Good id r.headers := by
  obtain ⟨-, -, -, -, host, h1, -, ha, hr⟩ := build_ok e
  have hf := good_front (authorize_good hg ha) T u host c
  rcases hr with ⟨-, hr, -⟩ | ⟨b, -, hr⟩
  · rw [hr]; exact good_dropContent hf
  · exact addContent_good hf hr

/-- The values of a header which does not describe a payload are those in front of the data. -/
theorem build_values {T : Tables} {m : Method} {u : Url} {h : Headers} {d : Option Body} {c : Cookies} {a} {r : Request}
    (hg : Good id h) (e : build T m u h d c a = .ok r) (k : Name) (hk : k.describes = false)
    (hb : ∀ b ∈ d, ∀ e ∈ b.headers, e.1 ≠ k) :
    ∃ host h1, u.host = some host ∧ authorize T u h a = some h1 ∧ r.headers.values k = (front T u host c h1).values k := by
  obtain ⟨-, -, -, hd, host, h1, hh, ha, hr⟩ := build_ok e
  refine ⟨host, h1, hh, ha, ?_⟩
  have hf := good_front (authorize_good hg ha) T u host c
  rcases hr with ⟨-, hr, -⟩ | ⟨b, hb', hr⟩
  · rw [hr, dropContent_values hf, hk]; rfl
  · refine addContent_values hf hr k hk (Or.inr (hb b ?_))
    rw [hb'] at hd
    cases d with
    | none => cases hd
    | some d =>
      rw [Option.filter_some] at hd
      split at hd
      · exact hd.symm
      · cases hd

/-! ### Rounds -/

theorem good_dropLength {h : Headers} (hg : Good id h) (second : Bool) : Good id (dropLength second h) := by
  unfold dropLength
  split
  · split
    · exact hg
    · split
      · exact hg
      · exact good_del hg _
  · exact good_del hg _

theorem dropLength_values {h : Headers} (hg : Good id h) (second : Bool) (k : Name) (hk : k ≠ .contentLength) :
    (dropLength second h).values k = h.values k := by
  unfold dropLength
  split
  · split
    · rfl
    · split
      · rfl
      · rw [values_del hg, if_neg (fun e => hk e.symm)]
  · rw [values_del hg, if_neg (fun e => hk e.symm)]

theorem good_keep {h h' : Headers} (hg : Good id h) {second : Bool} {u v : Url} (e : keepAuthorization second u v h = .ok h') :
    Good id h' := by
  unfold keepAuthorization at e
  split at e
  · cases e; exact hg
  · split at e
    · cases e
      split
      · exact good_del hg _
      · exact hg
    · cases e

theorem keep_values {h h' : Headers} (hg : Good id h) {second : Bool} {u v : Url} (e : keepAuthorization second u v h = .ok h')
    (k : Name) (hk : k ≠ .authorization) : h'.values k = h.values k := by
  unfold keepAuthorization at e
  split at e
  · cases e; rfl
  · split at e
    · cases e
      split
      · rw [values_del hg, if_neg (fun e => hk e.symm)]
      · rfl
    · cases e

/-- The redirecting statuses. -/
def redirecting (status : Nat) : Prop := status = 301 ∨ status = 302 ∨ status = 303 ∨ status = 307

instance (status : Nat) : Decidable (redirecting status) := by unfold redirecting; infer_instance

/-- A round: no request, the last request, or a request and the next round. -/
theorem run_cons (T : Tables) (second : Bool) (auth) (t : Turn) (ts : List Turn) (m : Method) (u : Url) (h : Headers) (d : Option Body)
    (n : Int) :
    ((run T second auth (t :: ts) m u h d n).1 = [] ∧ ∃ e, (run T second auth (t :: ts) m u h d n).2 = .raised e ∧
        build T m u h d t.cookies auth = .error e) ∨
    ∃ r, build T m u h d t.cookies auth = .ok r ∧
      (((run T second auth (t :: ts) m u h d n).1 = [r] ∧
        (((run T second auth (t :: ts) m u h d n).2 = .returned t.answer ∧
            (¬ redirecting t.answer.status ∨ n = 0 ∨ t.answer.to = none)) ∨
          ((run T second auth (t :: ts) m u h d n).2 = .raised .tooMany ∧ redirecting t.answer.status ∧ n = 1) ∨
          ((∃ e, e ≠ .tooMany ∧ (run T second auth (t :: ts) m u h d n).2 = .raised e) ∧ redirecting t.answer.status ∧ n ≠ 0 ∧ n ≠ 1))) ∨
        ∃ u0 u' h', redirecting t.answer.status ∧ n ≠ 0 ∧ n ≠ 1 ∧ t.answer.to = some (some u0) ∧ target T u u0 = .ok u' ∧
          keepAuthorization second u u'
            (if becomesGet t.answer.status m = true then dropLength second r.headers else r.headers) = .ok h' ∧
          (run T second auth (t :: ts) m u h d n).1 = r :: (run T second auth ts
            (if becomesGet t.answer.status m = true then .get else m) u' h' (if becomesGet t.answer.status m = true then none else d)
            (n - 1)).1 ∧
          (run T second auth (t :: ts) m u h d n).2 = (run T second auth ts
            (if becomesGet t.answer.status m = true then .get else m) u' h' (if becomesGet t.answer.status m = true then none else d)
            (n - 1)).2) := by
  rw [run]
  split
  · rename_i e he
    exact Or.inl ⟨rfl, e, rfl, he⟩
  · rename_i r hr
    right
    refine ⟨r, hr, ?_⟩
    split
    · rename_i hs
      split
      · rename_i hn
        exact Or.inl ⟨rfl, Or.inr (Or.inl ⟨rfl, hs.1, by omega⟩)⟩
      · rename_i hn
        have hn' : n ≠ 1 := by omega
        dsimp only
        split
        · rename_i ht
          exact Or.inl ⟨rfl, Or.inl ⟨rfl, Or.inr (Or.inr ht)⟩⟩
        · exact Or.inl ⟨rfl, Or.inr (Or.inr ⟨⟨_, by decide, rfl⟩, hs.1, hs.2, hn'⟩)⟩
        · rename_i u0 ht
          split
          · rename_i e he
            refine Or.inl ⟨rfl, Or.inr (Or.inr ⟨⟨e, ?_, rfl⟩, hs.1, hs.2, hn'⟩)⟩
            rintro rfl
            unfold target at he
            split at he
            · cases he
            · split at he
              · cases he
              · split at he <;> cases he
          · rename_i u' hu
            split
            · rename_i e he
              refine Or.inl ⟨rfl, Or.inr (Or.inr ⟨⟨e, ?_, rfl⟩, hs.1, hs.2, hn'⟩)⟩
              rintro rfl
              unfold keepAuthorization at he
              split at he
              · cases he
              · split at he <;> cases he
            · rename_i h' hk
              exact Or.inr ⟨u0, u', h', hs.1, hs.2, hn', ht, hu, hk, rfl, rfl⟩
    · rename_i hs
      refine Or.inl ⟨rfl, Or.inl ⟨rfl, ?_⟩⟩
      by_cases h1 : redirecting t.answer.status
      · right; left
        by_cases hn : n = 0
        · exact hn
        · exact absurd ⟨h1, hn⟩ hs
      · exact Or.inl h1

theorem run_redirect {T : Tables} {second : Bool} {auth} {t : Turn} {ts : List Turn} {m : Method} {u : Url} {h : Headers}
    {d : Option Body} {n : Int} {r : Request} {u0 u' : Url} {h' : Headers} (hb : build T m u h d t.cookies auth = .ok r)
    (hs : redirecting t.answer.status) (h0 : n ≠ 0) (h1 : n ≠ 1) (ht : t.answer.to = some (some u0)) (hu : target T u u0 = .ok u')
    (hk : keepAuthorization second u u'
      (if becomesGet t.answer.status m = true then dropLength second r.headers else r.headers) = .ok h') :
    run T second auth (t :: ts) m u h d n =
      (r :: (run T second auth ts (if becomesGet t.answer.status m = true then .get else m) u' h'
            (if becomesGet t.answer.status m = true then none else d) (n - 1)).1,
        (run T second auth ts (if becomesGet t.answer.status m = true then .get else m) u' h'
            (if becomesGet t.answer.status m = true then none else d) (n - 1)).2) := by
  rw [run, hb]
  dsimp only
  rw [if_pos ⟨hs, h0⟩, if_neg (by omega)]
  rw [ht]
  dsimp only
  rw [hu]
  dsimp only
  rw [hk]

theorem run_final {T : Tables} {second : Bool} {auth} {t : Turn} {ts : List Turn} {m : Method} {u : Url} {h : Headers}
    {d : Option Body} {n : Int} {r : Request} (hb : build T m u h d t.cookies auth = .ok r) (hs : ¬ redirecting t.answer.status) :
    run T second auth (t :: ts) m u h d n = ([r], .returned t.answer) := by
  rw [run, hb]
  dsimp only
  rw [if_neg (fun e => hs e.1)]

theorem build_get {T : Tables} {u : Url} {host : Text} (hh : u.host = some host) (hu : u.user = none) (h : Headers) (c : Cookies) :
    build T .get u h none c none = .ok ⟨.get, u, dropContent (front T u host c h), none, false⟩ := by
  unfold build
  rw [hh]
  dsimp only
  rw [if_neg (by simp), authorize_none hu]
  rfl

theorem keep_ok {second : Bool} {u v : Url} {a b : Text} (hu : u.host = some a) (hv : v.host = some b) (h : Headers) :
    ∃ h', keepAuthorization second u v h = .ok h' := by
  unfold keepAuthorization
  split
  · exact ⟨_, rfl⟩
  · rw [hu, hv]; exact ⟨_, rfl⟩

end Verif.Redirect
