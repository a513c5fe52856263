import Verif.Cookie.Props

/-!
# Properties of the cookie jar: how long cookies are sent

C94 and C95.
-/

namespace Verif.Cookie

/-! ### The specification -/

/-- A cookie, set by a host at a time. -/
structure Timed where
  time : Int
  setting : Setting

/-- The cookies set since the jar was cleared, in order. -/
def live (ops : List Op) : List Timed := ops.foldl (fun acc op => match op with
  | .update now (some host) path cookies => acc ++ cookies.map fun c => ⟨now, host, path, c⟩
  | .clear _ => []
  | _ => acc) []

/-- The domain and the name under which the jar has to keep a cookie; none if it has to refuse it. -/
def Setting.IsKey (isIp : Text → Bool) (acceptIps : Bool) (s : Setting) (k : Text × Text) : Prop :=
  (acceptIps = true ∨ isIp s.host = false) ∧ k.2 = s.cookie.name ∧ (s.HostOnly → k.1 = s.host) ∧
    (¬ s.HostOnly → k.1 = s.domain ∧ DomainMatch isIp s.domain s.host)

/-- When the cookie ends: the number of seconds after it is set, or else the date. -/
def Timed.deadline (r : Timed) : Option Int :=
  match r.setting.cookie.maxAge with
  | some (some seconds) => some (r.time + seconds * 1000)
  | some none => none
  | none => r.setting.cookie.expires

/-- Induction from the end of a list. -/
theorem snocInduction {α : Type} {motive : List α → Prop} (l : List α) (nil : motive [])
    (append_singleton : ∀ l a, motive l → motive (l ++ [a])) : motive l := by
  rw [← List.reverse_reverse l]
  induction l.reverse with
  | nil => exact nil
  | cons a t ih => rw [List.reverse_cons]; exact append_singleton _ _ ih

/-! ### Lookups -/

section
variable {κ β : Type} [DecidableEq κ]

theorem mem_dput_ne {l : List (κ × β)} {k : κ} {b : β} {e : κ × β} (h : e ∈ dput l k b) : (e ∈ l ∧ e.1 ≠ k) ∨ e = (k, b) := by
  by_cases hk : e.1 = k
  · exact Or.inr (mem_dput_key h hk)
  · rcases mem_dput h with h | h
    · exact Or.inl ⟨h, hk⟩
    · exact Or.inr h

theorem dput_mem (l : List (κ × β)) (k : κ) (b : β) : (k, b) ∈ dput l k b := by
  unfold dput
  split
  · rename_i h
    obtain ⟨e, he, hk⟩ := List.any_eq_true.mp h
    exact List.mem_map.mpr ⟨e, he, by rw [if_pos (by simpa using hk)]⟩
  · simp

theorem mem_dput_of_ne {l : List (κ × β)} {k : κ} {b : β} {e : κ × β} (h : e ∈ l) (hk : e.1 ≠ k) : e ∈ dput l k b := by
  unfold dput
  split
  · exact List.mem_map.mpr ⟨e, h, by rw [if_neg hk]⟩
  · exact List.mem_append_left _ h

theorem dget_map_ne (l : List (κ × β)) (k k' : κ) (b : β) (h : k' ≠ k) :
    dget (l.map fun e => if e.1 = k then (k, b) else e) k' = dget l k' := by
  unfold dget
  induction l with
  | nil => rfl
  | cons e l ih =>
    rw [List.map_cons]
    by_cases he : e.1 = k
    · rw [if_pos he, List.find?_cons_of_neg (by simpa using fun h' => h h'.symm),
        List.find?_cons_of_neg (by simp only [he]; simpa using fun h' => h h'.symm)]
      exact ih
    · rw [if_neg he]
      by_cases he' : e.1 = k'
      · rw [List.find?_cons_of_pos (by simpa using he'), List.find?_cons_of_pos (by simpa using he')]
      · rw [List.find?_cons_of_neg (by simpa using he'), List.find?_cons_of_neg (by simpa using he')]
        exact ih

theorem dget_map_eq (l : List (κ × β)) (k : κ) (b : β) (h : l.any (·.1 = k) = true) :
    dget (l.map fun e => if e.1 = k then (k, b) else e) k = some b := by
  unfold dget
  induction l with
  | nil => cases h
  | cons e l ih =>
    rw [List.map_cons]
    by_cases he : e.1 = k
    · rw [if_pos he, List.find?_cons_of_pos (by simp)]; rfl
    · rw [if_neg he, List.find?_cons_of_neg (by simpa using he)]
      refine ih ?_
      simpa [he] using h

theorem dget_append (l : List (κ × β)) (k k' : κ) (b : β) (h : ¬ l.any (·.1 = k) = true) :
    dget (l ++ [(k, b)]) k' = if k' = k then some b else dget l k' := by
  unfold dget
  rw [List.find?_append]
  by_cases hk : k' = k
  · rw [if_pos hk]
    have : l.find? (·.1 = k') = none := by
      rw [List.find?_eq_none]
      intro e he h'
      exact h (List.any_eq_true.mpr ⟨e, he, by rw [← hk]; exact h'⟩)
    rw [this]
    simp [hk]
  · rw [if_neg hk]
    have : ([(k, b)] : List (κ × β)).find? (·.1 = k') = none := by
      simpa using fun h' => hk (Eq.symm h')
    rw [this]
    simp

theorem dget_dput (l : List (κ × β)) (k k' : κ) (b : β) : dget (dput l k b) k' = if k' = k then some b else dget l k' := by
  unfold dput
  split
  · rename_i h
    by_cases hk : k' = k
    · rw [if_pos hk, hk]; exact dget_map_eq l k b h
    · rw [if_neg hk]; exact dget_map_ne l k k' b hk
  · rename_i h
    exact dget_append l k k' b h

theorem dget_dpop (l : List (κ × β)) (k k' : κ) (h : k' ≠ k) : dget (dpop l k) k' = dget l k' := by
  unfold dget dpop
  rw [List.find?_filter]
  congr 2
  funext e
  by_cases he : e.1 = k'
  · simp [he, h]
  · simp [he]

end

/-- What the jar has under a domain and a name. -/
def look (cookies : List (Text × List (Text × Cookie))) (k : Text × Text) : Option Cookie :=
  (dget cookies k.1).bind fun l => dget l k.2

theorem look_popCookie (cookies : List (Text × List (Text × Cookie))) (k k' : Text × Text) (h : k' ≠ k) :
    look (popCookie cookies k) k' = look cookies k' := by
  have hg : dget (popCookie cookies k) k'.1 = (dget cookies k'.1).map fun l => if k'.1 = k.1 then dpop l k.2 else l := by
    unfold popCookie dget
    induction cookies with
    | nil => rfl
    | cons e cookies ih =>
      rw [List.map_cons]
      by_cases he : e.1 = k'.1
      · rw [List.find?_cons_of_pos, List.find?_cons_of_pos (by simpa using he)]
        · by_cases hk : e.1 = k.1
          · simp [hk, ← he]
          · simp [hk, ← he]
        · split <;> simpa using he
      · rw [List.find?_cons_of_neg, List.find?_cons_of_neg (by simpa using he)]
        · exact ih
        · split <;> simpa using he
  unfold look
  rw [hg]
  cases hd : dget cookies k'.1 with
  | none => rfl
  | some l =>
    simp only [Option.map_some, Option.bind_some]
    split
    · rename_i hk
      exact dget_dpop _ _ _ fun h2 => h (Prod.ext hk h2)
    · rfl

theorem look_popAll (gone : List (Text × Text)) (cookies : List (Text × List (Text × Cookie))) (k : Text × Text) (h : k ∉ gone) :
    look (gone.foldl popCookie cookies) k = look cookies k := by
  induction gone generalizing cookies with
  | nil => rfl
  | cons g gone ih =>
    rw [List.mem_cons, not_or] at h
    rw [List.foldl_cons, ih _ h.2, look_popCookie _ _ _ h.1]

/-! ### One cookie -/

instance (s : Setting) : Decidable s.HostOnly := by unfold Setting.HostOnly; infer_instance

/-- What is kept of a cookie. -/
def kept (s : Setting) (domain : Text) : Cookie :=
  { s.cookie with domain := domain, path := if s.cookie.path.head? = some '/' then s.cookie.path else defaultPath s.path }

/-- The jar with a cookie in it. -/
def stored (jar : Jar) (r : Timed) (k : Text × Text) : Jar :=
  { jar with
    cookies := dput jar.cookies k.1 (dput ((dget jar.cookies k.1).getD []) k.2 (kept r.setting k.1))
    hostOnly := if r.setting.HostOnly then (if k ∈ jar.hostOnly then jar.hostOnly else jar.hostOnly ++ [k]) else jar.hostOnly
    expirations := match r.deadline with
      | some w => dput jar.expirations k w
      | none => jar.expirations
    next := match r.deadline with
      | some w => min jar.next w
      | none => jar.next }

theorem expireAttributes_eq (jar : Jar) (r : Timed) (k : Text × Text) :
    jar.expireAttributes r.time r.setting.cookie k = match r.deadline with
      | some w => jar.expireCookie w k
      | none => jar := by
  unfold Jar.expireAttributes Timed.deadline
  cases r.setting.cookie.maxAge with
  | none => cases r.setting.cookie.expires <;> rfl
  | some m => cases m <;> rfl

theorem updateOne_key (isIp : Text → Bool) (acceptIps : Bool) (jar : Jar) (r : Timed) (hh : r.setting.host ≠ [])
    (hdot : r.setting.host.head? ≠ some '.') (k : Text × Text) (hk : r.setting.IsKey isIp acceptIps k) :
    Jar.updateOne isIp r.time (some r.setting.host) r.setting.path jar r.setting.cookie = stored jar r k := by
  obtain ⟨time, host, path, c⟩ := r
  obtain ⟨k1, k2⟩ := k
  obtain ⟨-, h2, h3, h4⟩ := hk
  simp only at h2 h3 h4 hh hdot ⊢
  subst h2
  unfold Jar.updateOne Jar.flag
  simp only [Option.any_some]
  by_cases ho : c.domain = [] ∨ c.domain.getLast? = some '.'
  · have h3 := h3 ho
    subst h3
    have hd : (if c.domain.getLast? = some '.' then [] else c.domain) = [] := by
      split
      · rfl
      · rename_i hn
        rcases ho with ho | ho
        · exact ho
        · exact absurd ho hn
    simp only [hd, if_pos, if_neg hdot]
    rw [if_neg (by simp [domainsMatch])]
    rw [expireAttributes_eq _ ⟨time, k1, path, c⟩]
    have ho' : (⟨k1, path, c⟩ : Setting).HostOnly := ho
    unfold stored
    simp only [if_pos ho']
    cases Timed.deadline ⟨time, k1, path, c⟩ <;> rfl
  · obtain ⟨h4, h5⟩ := h4 ho
    have hne : ¬ c.domain = [] := fun e => ho (Or.inl e)
    have hl : ¬ c.domain.getLast? = some '.' := fun e => ho (Or.inr e)
    have hd0 : (⟨host, path, c⟩ : Setting).domain ≠ [] := by
      unfold Setting.domain
      simp only
      split
      · rename_i hx
        intro hnil
        cases hcd : c.domain with
        | nil => exact hne hcd
        | cons a t =>
          rw [hcd] at hx hnil
          simp at hx hnil
          rw [hcd, hnil, hx] at hl
          exact hl rfl
      · exact hne
    have hm := domainsMatch_complete isIp _ host hd0 h5
    have hdom : (⟨host, path, c⟩ : Setting).domain = if c.domain.head? = some '.' then c.domain.drop 1 else c.domain := rfl
    simp only [if_neg hl, if_neg hne, ← hdom]
    rw [hm, if_neg (by simp)]
    rw [expireAttributes_eq _ ⟨time, host, path, c⟩]
    have ho' : ¬ (⟨host, path, c⟩ : Setting).HostOnly := ho
    unfold stored
    simp only [if_neg ho', h4]
    cases Timed.deadline ⟨time, host, path, c⟩ <;> rfl

theorem updateOne_no_key (isIp : Text → Bool) (acceptIps : Bool) (jar : Jar) (r : Timed) (hh : r.setting.host ≠ [])
    (hip : acceptIps = true ∨ isIp r.setting.host = false) (hk : ∀ k, ¬ r.setting.IsKey isIp acceptIps k) :
    Jar.updateOne isIp r.time (some r.setting.host) r.setting.path jar r.setting.cookie = jar := by
  by_cases ho : r.setting.HostOnly
  · exact absurd ⟨hip, rfl, fun _ => rfl, fun hn => absurd ho hn⟩ (hk (r.setting.host, r.setting.cookie.name))
  · have hm : ¬ DomainMatch isIp r.setting.domain r.setting.host := fun hm =>
      hk (r.setting.domain, r.setting.cookie.name) ⟨hip, rfl, fun h => absurd h ho, fun _ => ⟨rfl, hm⟩⟩
    obtain ⟨time, host, path, c⟩ := r
    simp only at hh hm ho ⊢
    unfold Jar.updateOne Jar.flag
    simp only [Option.any_some]
    have hne : ¬ c.domain = [] := fun e => ho (Or.inl e)
    have hl : ¬ c.domain.getLast? = some '.' := fun e => ho (Or.inr e)
    have hdom : (⟨host, path, c⟩ : Setting).domain = if c.domain.head? = some '.' then c.domain.drop 1 else c.domain := rfl
    simp only [if_neg hl, if_neg hne, ← hdom]
    rw [if_pos]
    cases hx : domainsMatch isIp (⟨host, path, c⟩ : Setting).domain host with
    | true => exact absurd (domainsMatch_spec _ _ _ hx) hm
    | false => simp [hh]

theorem Setting.IsKey.unique {isIp : Text → Bool} {acceptIps : Bool} {s : Setting} {k k' : Text × Text}
    (h : s.IsKey isIp acceptIps k) (h' : s.IsKey isIp acceptIps k') : k = k' := by
  obtain ⟨-, h2, h3, h4⟩ := h
  obtain ⟨-, h2', h3', h4'⟩ := h'
  refine Prod.ext ?_ (h2.trans h2'.symm)
  by_cases ho : s.HostOnly
  · rw [h3 ho, h3' ho]
  · rw [(h4 ho).1, (h4' ho).1]

/-! ### The invariants -/

theorem le_ceilSecond (t : Int) : t ≤ ceilSecond t ∧ ceilSecond t < t + 1000 := by
  unfold ceilSecond
  omega

/-- The setting is the last one for the key. -/
def Last (isIp : Text → Bool) (acceptIps : Bool) (rs : List Timed) (r : Timed) (k : Text × Text) : Prop :=
  ∃ pre post, rs = pre ++ r :: post ∧ r.setting.IsKey isIp acceptIps k ∧ ∀ q ∈ post, ¬ q.setting.IsKey isIp acceptIps k

theorem Last.mem {isIp : Text → Bool} {acceptIps : Bool} {rs : List Timed} {r : Timed} {k : Text × Text}
    (h : Last isIp acceptIps rs r k) : r ∈ rs := by
  obtain ⟨pre, post, rfl, _⟩ := h; simp

theorem Last.append {isIp : Text → Bool} {acceptIps : Bool} {rs : List Timed} {r q : Timed} {k : Text × Text}
    (h : Last isIp acceptIps rs r k) (hq : ¬ q.setting.IsKey isIp acceptIps k) : Last isIp acceptIps (rs ++ [q]) r k := by
  obtain ⟨pre, post, rfl, h1, h2⟩ := h
  refine ⟨pre, post ++ [q], by simp, h1, ?_⟩
  intro x hx
  rcases List.mem_append.mp hx with hx | hx
  · exact h2 x hx
  · rw [List.mem_singleton.mp hx]; exact hq

theorem Last.snoc {isIp : Text → Bool} {acceptIps : Bool} {rs : List Timed} {r q : Timed} {k : Text × Text}
    (h : Last isIp acceptIps (rs ++ [q]) r k) :
    (r = q ∧ q.setting.IsKey isIp acceptIps k) ∨ (Last isIp acceptIps rs r k ∧ ¬ q.setting.IsKey isIp acceptIps k) := by
  obtain ⟨pre, post, h0, h1, h2⟩ := h
  rcases List.eq_nil_or_concat post with rfl | ⟨post', q', rfl⟩
  · obtain ⟨-, e⟩ := List.append_inj' h0 rfl
    simp at e
    subst e
    exact Or.inl ⟨rfl, h1⟩
  · rw [List.concat_eq_append] at h0 h2
    have h0 : rs ++ [q] = (pre ++ r :: post') ++ [q'] := by rw [h0]; simp
    obtain ⟨e1, e⟩ := List.append_inj' h0 rfl
    simp at e
    subst e
    exact Or.inr ⟨⟨pre, post', e1, h1, fun x hx => h2 x (by simp [hx])⟩, h2 q (by simp)⟩

theorem Last.unique {isIp : Text → Bool} {acceptIps : Bool} {rs : List Timed} {r q : Timed} {k : Text × Text}
    (h : Last isIp acceptIps rs r k) (h' : Last isIp acceptIps rs q k) : r = q := by
  induction rs using snocInduction with
  | nil => exact absurd h.mem (by simp)
  | append_singleton rs x ih =>
    rcases h.snoc with ⟨h1, h2⟩ | ⟨h1, h2⟩
    · rcases h'.snoc with ⟨h3, _⟩ | ⟨_, h3⟩
      · rw [h1, h3]
      · exact absurd h2 h3
    · rcases h'.snoc with ⟨_, h3⟩ | ⟨h3, _⟩
      · exact absurd h3 h2
      · exact ih h1 h3

/-- What is in the jar is what was set last. -/
structure Fresh (isIp : Text → Bool) (acceptIps : Bool) (rs : List Timed) (jar : Jar) : Prop where
  entry : ∀ e ∈ jar.cookies, ∀ x ∈ e.2, ∃ r, Last isIp acceptIps rs r (e.1, x.1) ∧ x.2 = kept r.setting e.1 ∧
    ∀ w, r.deadline = some w → ((e.1, x.1), w) ∈ jar.expirations
  next : ∀ y ∈ jar.expirations, jar.next ≤ ceilSecond y.2
  flag : ∀ k ∈ jar.hostOnly, ∃ q ∈ rs, q.setting.IsKey isIp acceptIps k ∧ q.setting.HostOnly

theorem foldl_min_le (l : List ((Text × Text) × Int)) (t : Int) : l.foldl (fun t e => min t e.2) t ≤ t ∧
    ∀ y ∈ l, l.foldl (fun t e => min t e.2) t ≤ y.2 := by
  induction l generalizing t with
  | nil => simp
  | cons e l ih =>
    rw [List.foldl_cons]
    obtain ⟨h1, h2⟩ := ih (min t e.2)
    refine ⟨by omega, fun y hy => ?_⟩
    rcases List.mem_cons.mp hy with rfl | hy
    · omega
    · exact h2 y hy

theorem ceilSecond_mono {a b : Int} (h : a ≤ b) : ceilSecond a ≤ ceilSecond b := by
  unfold ceilSecond; omega

theorem Fresh.doExpiration {isIp : Text → Bool} {acceptIps : Bool} {rs : List Timed} {jar : Jar} (h : Fresh isIp acceptIps rs jar)
    (now : Int) : Fresh isIp acceptIps rs (jar.doExpiration now) := by
  unfold Jar.doExpiration
  split
  · exact h
  · split
    · exact h
    · refine ⟨?_, ?_, ?_⟩
      · intro e he x hx
        simp only at he ⊢
        obtain ⟨h1, e', he', hk, hx'⟩ := mem_popAll he hx
        obtain ⟨r, h2, h3, h4⟩ := h.entry e' he' x hx'
        rw [hk] at h2 h3 h4
        refine ⟨r, h2, h3, fun w hw => List.mem_filter.mpr ⟨h4 w hw, ?_⟩⟩
        simp only [Bool.not_eq_true', decide_eq_false_iff_not]
        intro hlt
        exact h1 (List.mem_map.mpr ⟨_, List.mem_filter.mpr ⟨h4 w hw, by simpa using hlt⟩, rfl⟩)
      · intro y hy
        exact ceilSecond_mono ((foldl_min_le _ _).2 y hy)
      · intro k hk
        exact h.flag k (List.mem_filter.mp hk).1

theorem Fresh.stored {isIp : Text → Bool} {acceptIps : Bool} {rs : List Timed} {jar : Jar} (h : Fresh isIp acceptIps rs jar)
    (r : Timed) (k : Text × Text) (hk : r.setting.IsKey isIp acceptIps k) : Fresh isIp acceptIps (rs ++ [r]) (stored jar r k) := by
  have hlast : Last isIp acceptIps (rs ++ [r]) r k := ⟨rs, [], rfl, hk, by simp⟩
  have hother : ∀ e ∈ jar.cookies, ∀ x ∈ e.2, (e.1, x.1) ≠ k → ∃ q, Last isIp acceptIps (rs ++ [r]) q (e.1, x.1) ∧
      x.2 = kept q.setting e.1 ∧ ∀ w, q.deadline = some w → ((e.1, x.1), w) ∈ (Verif.Cookie.stored jar r k).expirations := by
    intro e he x hx hne
    obtain ⟨q, h1, h2, h3⟩ := h.entry e he x hx
    refine ⟨q, h1.append fun hq => hne (hq.unique hk), h2, fun w hw => ?_⟩
    unfold Verif.Cookie.stored
    cases r.deadline with
    | none => exact h3 w hw
    | some w' => exact mem_dput_of_ne (h3 w hw) hne
  refine ⟨?_, ?_, ?_⟩
  · intro e he x hx
    rcases mem_dput_ne (show e ∈ dput jar.cookies k.1 _ from he) with ⟨he, hne⟩ | rfl
    · exact hother e he x hx fun hk => hne (by rw [← hk])
    · rcases mem_dput_ne hx with ⟨hx, hne⟩ | rfl
      · cases hg : dget jar.cookies k.1 with
        | none => rw [hg] at hx; cases hx
        | some l =>
          rw [hg] at hx
          exact hother (k.1, l) (mem_of_dget hg) x hx fun hk => hne (by rw [← hk])
      · refine ⟨r, hlast, rfl, fun w hw => ?_⟩
        unfold Verif.Cookie.stored
        rw [hw]
        exact dput_mem _ _ _
  · unfold Verif.Cookie.stored
    cases r.deadline with
    | none => exact h.next
    | some w =>
      intro y hy
      rcases mem_dput hy with hy | rfl
      · have := h.next y hy
        show min jar.next w ≤ _
        omega
      · have := (le_ceilSecond w).1
        show min jar.next w ≤ ceilSecond w
        omega
  · intro k' hk'
    unfold Verif.Cookie.stored at hk'
    simp only at hk'
    have hold : k' ∈ jar.hostOnly → ∃ q ∈ rs ++ [r], q.setting.IsKey isIp acceptIps k' ∧ q.setting.HostOnly := by
      intro hk'
      obtain ⟨q, hq, h1⟩ := h.flag k' hk'
      exact ⟨q, by simp [hq], h1⟩
    split at hk'
    · rename_i ho
      split at hk'
      · exact hold hk'
      · rcases List.mem_append.mp hk' with hk' | hk'
        · exact hold hk'
        · rw [List.mem_singleton.mp hk']
          exact ⟨r, by simp, hk, ho⟩
    · exact hold hk'

theorem Fresh.refuse {isIp : Text → Bool} {acceptIps : Bool} {rs : List Timed} {jar : Jar} (h : Fresh isIp acceptIps rs jar)
    (r : Timed) (hk : ∀ k, ¬ r.setting.IsKey isIp acceptIps k) : Fresh isIp acceptIps (rs ++ [r]) jar := by
  refine ⟨?_, h.next, ?_⟩
  · intro e he x hx
    obtain ⟨q, h1, h2⟩ := h.entry e he x hx
    exact ⟨q, h1.append (hk _), h2⟩
  · intro k hk'
    obtain ⟨q, hq, h1⟩ := h.flag k hk'
    exact ⟨q, by simp [hq], h1⟩

/-- Under a key there is what was set last, unless it has ended. -/
structure Keeps (isIp : Text → Bool) (acceptIps : Bool) (now : Int) (k : Text × Text) (rs : List Timed) (jar : Jar) : Prop where
  ends : ∀ y ∈ jar.expirations, y.1 = k → now ≤ y.2
  look : ∀ r, Last isIp acceptIps rs r k → look jar.cookies k = some (kept r.setting k.1)

theorem Keeps.doExpiration {isIp : Text → Bool} {acceptIps : Bool} {now : Int} {k : Text × Text} {rs : List Timed} {jar : Jar}
    (h : Keeps isIp acceptIps now k rs jar) (t : Int) (ht : t ≤ now) : Keeps isIp acceptIps now k rs (jar.doExpiration t) := by
  unfold Jar.doExpiration
  split
  · exact h
  · split
    · exact h
    · refine ⟨fun y hy => h.ends y (List.mem_filter.mp hy).1, fun r hr => ?_⟩
      simp only
      rw [look_popAll, h.look r hr]
      intro hm
      obtain ⟨y, hy, hyk⟩ := List.mem_map.mp hm
      obtain ⟨hy, hlt⟩ := List.mem_filter.mp hy
      have := h.ends y hy hyk
      simp at hlt
      omega

theorem Keeps.stored {isIp : Text → Bool} {acceptIps : Bool} {now : Int} {k : Text × Text} {rs : List Timed} {jar : Jar}
    (h : Keeps isIp acceptIps now k rs jar) (r : Timed) (k' : Text × Text) (hk : r.setting.IsKey isIp acceptIps k')
    (hw : k' = k → ∀ w, r.deadline = some w → now ≤ w) : Keeps isIp acceptIps now k (rs ++ [r]) (stored jar r k') := by
  refine ⟨?_, ?_⟩
  · intro y hy hyk
    unfold Verif.Cookie.stored at hy
    cases hd : r.deadline with
    | none => rw [hd] at hy; exact h.ends y hy hyk
    | some w =>
      rw [hd] at hy
      rcases mem_dput hy with hy | rfl
      · exact h.ends y hy hyk
      · exact hw hyk w hd
  · intro q hq
    unfold Verif.Cookie.stored Verif.Cookie.look
    simp only [dget_dput]
    rcases hq.snoc with ⟨rfl, h1⟩ | ⟨h1, h2⟩
    · have e := hk.unique h1
      subst e
      simp [dget_dput]
    · have hlook := h.look q h1
      unfold Verif.Cookie.look at hlook
      by_cases e1 : k.1 = k'.1
      · have e2 : k.2 ≠ k'.2 := fun e2 => h2 (by rw [Prod.ext e1 e2]; exact hk)
        rw [if_pos e1]
        simp only [Option.bind_some, dget_dput, if_neg e2]
        rw [e1] at hlook ⊢
        cases hd : dget jar.cookies k'.1 with
        | none => rw [hd] at hlook; cases hlook
        | some l => rw [hd] at hlook; exact hlook
      · rw [if_neg e1]
        exact hlook

/-- The times of a history. -/
def Op.time : Op → Int
  | .update now _ _ _ => now
  | .clear now => now
  | .filter now _ => now

theorem live_snoc (ops : List Op) (op : Op) : live (ops ++ [op]) = match op with
    | .update now (some host) path cookies => live ops ++ cookies.map fun c => ⟨now, host, path, c⟩
    | .clear _ => []
    | _ => live ops := by
  unfold live
  rw [List.foldl_append]
  rfl

theorem HasHosts.init {ops : List Op} {op : Op} (h : HasHosts (ops ++ [op])) : HasHosts ops :=
  fun now host path cookies hm => h now host path cookies (by simp [hm])

/-- The cookies of one response, one after the other. -/
theorem foldl_updateOne {isIp : Text → Bool} {acceptIps : Bool} (P : List Timed → Jar → Prop) (now : Int) (host path : Text)
    (hh : host ≠ []) (hdot : host.head? ≠ some '.') (hip : acceptIps = true ∨ isIp host = false)
    (cookies : List Cookie)
    (hs : ∀ c ∈ cookies, ∀ rs jar k, P rs jar → (⟨host, path, c⟩ : Setting).IsKey isIp acceptIps k → P (rs ++ [⟨now, host, path, c⟩]) (stored jar ⟨now, host, path, c⟩ k))
    (hr : ∀ c ∈ cookies, ∀ rs jar, P rs jar → (∀ k, ¬ (⟨host, path, c⟩ : Setting).IsKey isIp acceptIps k) → P (rs ++ [⟨now, host, path, c⟩]) jar)
    : ∀ rs jar, P rs jar →
      P (rs ++ cookies.map fun c => ⟨now, host, path, c⟩) (cookies.foldl (Jar.updateOne isIp now (some host) path) jar) := by
  induction cookies with
  | nil => intro rs jar h; simpa using h
  | cons c cookies ih =>
    intro rs jar h
    rw [List.foldl_cons, List.map_cons]
    have : rs ++ (⟨now, host, path, c⟩ : Timed) :: cookies.map (fun c => ⟨now, host, path, c⟩) =
        (rs ++ [⟨now, host, path, c⟩]) ++ cookies.map (fun c => ⟨now, host, path, c⟩) := by simp
    rw [this]
    refine ih (fun c hc => hs c (by simp [hc])) (fun c hc => hr c (by simp [hc])) _ _ ?_
    by_cases hk : ∃ k, (⟨host, path, c⟩ : Setting).IsKey isIp acceptIps k
    · obtain ⟨k, hk⟩ := hk
      rw [updateOne_key isIp acceptIps jar ⟨now, host, path, c⟩ hh hdot k hk]
      exact hs c (by simp) rs jar k h hk
    · have hk : ∀ k, ¬ (⟨host, path, c⟩ : Setting).IsKey isIp acceptIps k := fun k hx => hk ⟨k, hx⟩
      rw [updateOne_no_key isIp acceptIps jar ⟨now, host, path, c⟩ hh hip hk]
      exact hr c (by simp) rs jar h hk

theorem refuse_all {isIp : Text → Bool} {acceptIps : Bool} (P : List Timed → Prop) (now : Int) (host path : Text)
    (hip : (!acceptIps && isIp host) = true) (cookies : List Cookie)
    (hr : ∀ c rs, P rs → (∀ k, ¬ (⟨host, path, c⟩ : Setting).IsKey isIp acceptIps k) → P (rs ++ [⟨now, host, path, c⟩])) :
    ∀ rs, P rs → P (rs ++ cookies.map fun c => ⟨now, host, path, c⟩) := by
  induction cookies with
  | nil => intro rs h; simpa using h
  | cons c cookies ih =>
    intro rs h
    have : rs ++ (c :: cookies).map (fun c => (⟨now, host, path, c⟩ : Timed)) =
        (rs ++ [⟨now, host, path, c⟩]) ++ cookies.map (fun c => ⟨now, host, path, c⟩) := by simp
    rw [this]
    refine ih _ (hr c rs h ?_)
    rintro k ⟨h1, -⟩
    simp at hip
    rcases h1 with h1 | h1
    · rw [hip.1] at h1; cases h1
    · simp only at h1; rw [hip.2] at h1; cases h1

theorem runAll_snoc (isIp : Text → Bool) (jar : Jar) (ops : List Op) (op : Op) :
    jar.runAll isIp (ops ++ [op]) = (jar.runAll isIp ops).step isIp op := by
  unfold Jar.runAll; rw [List.foldl_append]; rfl

theorem fresh_runAll (isIp : Text → Bool) (acceptIps : Bool) (start : Int) (ops : List Op) (hh : HasHosts ops) :
    Fresh isIp acceptIps (live ops) ((Jar.new acceptIps start).runAll isIp ops) := by
  induction ops using snocInduction with
  | nil => exact ⟨(by intro e he; cases he), (by intro y hy; cases hy), (by intro k hk; cases hk)⟩
  | append_singleton ops op ih =>
    have ih := ih hh.init
    have hacc := runAll_acceptIps isIp ops (Jar.new acceptIps start)
    rw [live_snoc, runAll_snoc]
    generalize (Jar.new acceptIps start).runAll isIp ops = jar at ih hacc
    cases op with
    | update now host path cookies =>
      obtain ⟨h, rfl, h1, h2⟩ := hh now host path cookies (by simp)
      have hacc : jar.acceptIps = acceptIps := hacc
      simp only [Jar.step, Jar.update, Option.any_some, hacc]
      by_cases hi : (!acceptIps && isIp h) = true
      · rw [if_pos hi]
        exact refuse_all (fun rs => Fresh isIp acceptIps rs jar) now h path hi cookies (fun c rs hf hk => hf.refuse _ hk) _ ih
      · rw [if_neg hi]
        apply Fresh.doExpiration
        have hip : acceptIps = true ∨ isIp h = false := by
          cases acceptIps <;> simp_all
        exact foldl_updateOne (fun rs jar => Fresh isIp acceptIps rs jar) now h path h1 h2 hip cookies
          (fun c _ rs jar k hf hk => hf.stored _ k hk) (fun c _ rs jar hf hk => hf.refuse _ hk) _ _ ih
    | clear now => exact ⟨(by intro e he; cases he), (by intro y hy; cases hy), (by intro k hk; cases hk)⟩
    | filter now request => exact (ih.doExpiration now).doExpiration now

theorem keeps_runAll (isIp : Text → Bool) (acceptIps : Bool) (start : Int) (now : Int) (k : Text × Text) (ops : List Op)
    (hh : HasHosts ops) (ht : ∀ op ∈ ops, op.time ≤ now)
    (hw : ∀ now' host path cookies, .update now' (some host) path cookies ∈ ops → ∀ c ∈ cookies,
      (⟨host, path, c⟩ : Setting).IsKey isIp acceptIps k → ∀ w, Timed.deadline ⟨now', host, path, c⟩ = some w → now ≤ w) :
    Keeps isIp acceptIps now k (live ops) ((Jar.new acceptIps start).runAll isIp ops) := by
  induction ops using snocInduction with
  | nil => exact ⟨(by intro y hy; cases hy), fun r hr => absurd hr.mem (by simp [live])⟩
  | append_singleton ops op ih =>
    have ih := ih hh.init (fun op hop => ht op (by simp [hop]))
      (fun now' host path cookies hm => hw now' host path cookies (by simp [hm]))
    have hacc := runAll_acceptIps isIp ops (Jar.new acceptIps start)
    rw [live_snoc, runAll_snoc]
    generalize (Jar.new acceptIps start).runAll isIp ops = jar at ih hacc
    cases op with
    | update now' host path cookies =>
      obtain ⟨h, rfl, h1, h2⟩ := hh now' host path cookies (by simp)
      have hacc : jar.acceptIps = acceptIps := hacc
      have ht' : now' ≤ now := ht (.update now' (some h) path cookies) (by simp)
      have hrefuse : ∀ c rs jar, Keeps isIp acceptIps now k rs jar → (∀ k, ¬ (⟨h, path, c⟩ : Setting).IsKey isIp acceptIps k) →
          Keeps isIp acceptIps now k (rs ++ [⟨now', h, path, c⟩]) jar := by
        intro c rs jar hf hk
        refine ⟨hf.ends, fun r hr => ?_⟩
        rcases hr.snoc with ⟨-, h3⟩ | ⟨h3, -⟩
        · exact absurd h3 (hk k)
        · exact hf.look r h3
      simp only [Jar.step, Jar.update, Option.any_some, hacc]
      by_cases hi : (!acceptIps && isIp h) = true
      · rw [if_pos hi]
        exact refuse_all (fun rs => Keeps isIp acceptIps now k rs jar) now' h path hi cookies (fun c rs => hrefuse c rs jar) _ ih
      · rw [if_neg hi]
        refine Keeps.doExpiration ?_ now' ht'
        have hip : acceptIps = true ∨ isIp h = false := by
          cases acceptIps <;> simp_all
        exact foldl_updateOne (fun rs jar => Keeps isIp acceptIps now k rs jar) now' h path h1 h2 hip cookies
          (fun c hc rs jar k' hf hk => hf.stored _ k' hk (fun e w hd => hw now' h path cookies (by simp) c hc (e ▸ hk) w hd))
          (fun c _ rs jar => hrefuse c rs jar) _ _ ih
    | clear now => exact ⟨(by intro y hy; cases hy), fun r hr => absurd hr.mem (by simp)⟩
    | filter now' request =>
      have ht' : now' ≤ now := ht (.filter now' request) (by simp)
      exact (ih.doExpiration now' ht').doExpiration now' ht'

/-! ## C94: a cookie is not sent after its end -/

/-- After the expiration nothing is left that ended more than a second ago. -/
theorem doExpiration_ends {jar : Jar} {now : Int} (hn : ∀ y ∈ jar.expirations, jar.next ≤ ceilSecond y.2) {y : (Text × Text) × Int}
    (hy : y ∈ (jar.doExpiration now).expirations) : now < y.2 + 1000 := by
  unfold Jar.doExpiration at hy
  split at hy
  · have := hn y hy
    have := (le_ceilSecond y.2).2
    omega
  · split at hy
    · rename_i he; rw [he] at hy; cases hy
    · have := (List.mem_filter.mp hy).2
      simp at this
      omega

/-- **C94.** What is sent with a request is what was set last under its domain and name since the jar was cleared, and did
not end a second ago or earlier; the end is the one of `Max-Age`, or, without it, the one of `Expires` when the number is
read as a time of the clock of the event loop.  Missing: the second, the date on the clock it is meant for, and an `Expires`
beside a `Max-Age` which is not a number. -/
theorem C94_ended_partial (isIp : Text → Bool) (acceptIps : Bool) (start : Int) (ops : List Op) (hh : HasHosts ops) (now : Int)
    (request : Request) :
    ∀ e ∈ (((Jar.new acceptIps start).runAll isIp ops).filter isIp now request).1,
      ∃ r k, Last isIp acceptIps (live ops) r k ∧ e = (r.setting.cookie.name, r.setting.cookie.value) ∧
        (∀ seconds, r.setting.cookie.maxAge = some (some seconds) → now < r.time + seconds * 1000 + 1000) ∧
        (∀ time, r.setting.cookie.maxAge = none → r.setting.cookie.expires = some time → now < time + 1000) := by
  intro e he
  have hf := (fresh_runAll isIp acceptIps start ops hh).doExpiration now
  unfold Jar.filter at he
  generalize ((Jar.new acceptIps start).runAll isIp ops).doExpiration now = jar at he hf
  have hf2 := hf.doExpiration now
  have hend : ∀ y ∈ (jar.doExpiration now).expirations, now < y.2 + 1000 := fun y hy => doExpiration_ends hf.next hy
  generalize jar.doExpiration now = jar' at he hf2 hend
  simp only at he
  rcases mem_foldl_dput he with h | ⟨c, hc, h⟩
  · cases h
  · have hall := (List.mem_filter.mp hc).1
    unfold Jar.all at hall
    obtain ⟨d, hd, hx⟩ := List.mem_flatMap.mp hall
    obtain ⟨x, hxm, rfl⟩ := List.mem_map.mp hx
    obtain ⟨r, h1, h2, h3⟩ := hf2.entry d hd x hxm
    refine ⟨r, _, h1, by rw [h, h2]; rfl, ?_, ?_⟩
    · intro seconds hs
      exact hend _ (h3 _ (by unfold Timed.deadline; rw [hs]))
    · intro time hm ht
      exact hend _ (h3 _ (by unfold Timed.deadline; rw [hm]; exact ht))

/-- **C94, violated.** A cookie with a `Max-Age` of zero, by which a server takes it away, is still sent until the second of
the clock is over. -/
theorem C94_zero_violated :
    (((Jar.new false 100).runAll (fun _ => false) [.update 500 (some ['x']) ['/'] [{ name := ['c'], value := ['1'], maxAge := some (some 0) }]]).filter
      (fun _ => false) 999 ⟨['x'], ['/'], true⟩).1 = [(['c'], ['1'])] := by decide

/-- **C94, violated.** The date of `Expires` is compared with the clock of the event loop, which starts with the machine: a
cookie that ended in the year 2000 is sent for as long as the machine runs for less than thirty years. -/
theorem C94_expires_violated (isIp : Text → Bool) (now : Int) (h0 : 0 ≤ now) (hnow : now < 946684800000) (name value : Text)
    (hip : isIp ['x'] = false) :
    (((Jar.new false 0).runAll isIp [.update now (some ['x']) ['/'] [{ name, value, expires := some 946684800000 }]]).filter
      isIp now ⟨['x'], ['/'], true⟩).1 = [(name, value)] := by
  have h1 : ¬ (946684800000 : Int) < now := by omega
  have hmin : (min 0 946684800000 : Int) = 0 := by decide
  have h2 : ¬ now < 0 := by omega
  have hmin' : (min maxTime 946684800000 : Int) = 946684800000 := by decide
  have hc : ceilSecond 946684800000 = 946684800000 := by decide
  have h3 : ceilSecond 0 = 0 := by decide
  simp [Jar.new, Jar.runAll, Jar.step, Jar.update, Jar.updateOne, Jar.flag, Jar.expireAttributes, Jar.expireCookie, Jar.doExpiration,
    Jar.filter, Jar.all, sends, dput, dget, domainsMatch, pathsMatch, defaultPath, hip, h1, h2, h3, hmin, hmin', hc, hnow]

/-- **C94, violated.** A `Max-Age` which is not a number hides the `Expires` beside it, also when that is in the past on
every clock. -/
theorem C94_invalid_violated :
    (((Jar.new false 0).runAll (fun _ => false) [.update 500 (some ['x']) ['/'] [{ name := ['c'], value := ['1'], maxAge := some none, expires := some 0 }]]).filter
      (fun _ => false) 100000 ⟨['x'], ['/'], true⟩).1 = [(['c'], ['1'])] := by decide

example : (((Jar.new false 100).runAll (fun _ => false) [.update 500 (some ['x']) ['/'] [{ name := ['c'], value := ['1'], maxAge := some (some 3) }]]).filter
    (fun _ => false) 4500 ⟨['x'], ['/'], true⟩).1 = [] := by decide

/-! ## C95: a cookie is sent until its end -/

theorem defaultPath_unique {path d : Text} (h : IsDefaultPath path d) : d = defaultPath path := by
  have h' := defaultPath_spec path
  unfold IsDefaultPath at h h'
  split at h
  · rename_i hs
    rw [if_pos hs] at h'
    obtain ⟨f, r, h1, h2, h3⟩ := h
    obtain ⟨f', r', h1', h2', h3'⟩ := h'
    have : f = f' := by
      rw [h1] at h1'
      rcases List.append_eq_append_iff.mp h1' with ⟨a, e1, e2⟩ | ⟨a, e1, e2⟩
      · cases a with
        | nil => simpa using e1.symm
        | cons c a =>
          simp at e2
          exact absurd (by rw [e2.2]; simp) h2
      · cases a with
        | nil => simpa using e1
        | cons c a =>
          simp at e2
          exact absurd (by rw [e2.2]; simp) h2'
    rw [h3, h3', this]
  · rename_i hs
    rw [if_neg hs] at h'
    rw [h, h']

theorem kept_path {s : Setting} {d path : Text} (h : s.HasPath path) : (kept s d).path = path := by
  unfold Setting.HasPath at h
  unfold kept
  simp only
  split at h
  · rename_i hp; rw [if_pos hp, h]
  · rename_i hp; rw [if_neg hp, defaultPath_unique h]

theorem keys_foldl_dput {cs : List Cookie} : ∀ (d : List (Text × Text)) (n : Text),
    ((∃ e ∈ d, e.1 = n) ∨ ∃ c ∈ cs, c.name = n) → ∃ e ∈ cs.foldl (fun d c => dput d c.name c.value) d, e.1 = n := by
  induction cs with
  | nil => intro d n h; rcases h with h | ⟨c, hc, _⟩
           · exact h
           · cases hc
  | cons c cs ih =>
    intro d n h
    rw [List.foldl_cons]
    refine ih _ n ?_
    by_cases hc : c.name = n
    · exact Or.inl ⟨(c.name, c.value), dput_mem _ _ _, hc⟩
    · rcases h with ⟨e, he, hen⟩ | ⟨c', hc', hcn⟩
      · exact Or.inl ⟨e, mem_dput_of_ne he (by rw [hen]; exact fun h => hc h.symm), hen⟩
      · rcases List.mem_cons.mp hc' with rfl | hc'
        · exact absurd hcn hc
        · exact Or.inr ⟨c', hc', hcn⟩

/-- **C95.** A cookie that was set last under its domain and name since the jar was cleared, and may go with a request, is
sent with it, in all histories up to the request; provided that nothing set under that domain and name has ended before it,
that it was never for its host only if the last one is not, that no other domain has a cookie of that name, and that the
host is no IP address if the jar does not accept those.  Missing: without these. -/
theorem C95_kept_partial (isIp : Text → Bool) (acceptIps : Bool) (start : Int) (ops : List Op) (hh : HasHosts ops) (now : Int)
    (ht : ∀ op ∈ ops, op.time ≤ now) (request : Request) (r : Timed) (k : Text × Text) (hr : Last isIp acceptIps (live ops) r k)
    (hallow : r.setting.Allows isIp request) (hip : acceptIps = true ∨ isIp request.host = false)
    (hend : ∀ now' host path cookies, .update now' (some host) path cookies ∈ ops → ∀ c ∈ cookies,
      (⟨host, path, c⟩ : Setting).IsKey isIp acceptIps k → ∀ w, Timed.deadline ⟨now', host, path, c⟩ = some w → now ≤ w)
    (hflag : ¬ r.setting.HostOnly → ∀ q ∈ live ops, q.setting.IsKey isIp acceptIps k → ¬ q.setting.HostOnly)
    (hname : ∀ q ∈ live ops, ∀ k', q.setting.IsKey isIp acceptIps k' → k'.2 = k.2 → k' = k) :
    (r.setting.cookie.name, r.setting.cookie.value) ∈ (((Jar.new acceptIps start).runAll isIp ops).filter isIp now request).1 := by
  have hk := (fun (⟨_, _, _, h, _⟩ : Last isIp acceptIps (live ops) r k) => h) hr
  have hname' : r.setting.cookie.name = k.2 := hk.2.1.symm
  have hf := ((fresh_runAll isIp acceptIps start ops hh).doExpiration now).doExpiration now
  have hkeep := ((keeps_runAll isIp acceptIps start now k ops hh ht hend).doExpiration now (Int.le_refl _)).doExpiration now (Int.le_refl _)
  have hacc : ((((Jar.new acceptIps start).runAll isIp ops).doExpiration now).doExpiration now).acceptIps = acceptIps := by
    rw [doExpiration_acceptIps, doExpiration_acceptIps, runAll_acceptIps]; rfl
  unfold Jar.filter
  generalize (((Jar.new acceptIps start).runAll isIp ops).doExpiration now).doExpiration now = jar at hf hkeep hacc
  simp only
  -- it is in the jar
  have hlook := hkeep.look r hr
  unfold look at hlook
  obtain ⟨l, hl, hx⟩ := Option.bind_eq_some_iff.mp hlook
  have hl := mem_of_dget hl
  have hx := mem_of_dget hx
  have hmem : kept r.setting k.1 ∈ jar.all := List.mem_flatMap.mpr ⟨_, hl, List.mem_map.mpr ⟨_, hx, rfl⟩⟩
  -- it is sent
  have hsend : sends isIp jar request (kept r.setting k.1) = true := by
    obtain ⟨a1, a2, ⟨path, a3, a4⟩, a5⟩ := hallow
    have hpath : pathsMatch request.path (kept r.setting k.1).path = true := by
      rw [kept_path a3]; exact (pathsMatch_spec _ _).mpr a4
    have hsec : (!(!request.secure && (kept r.setting k.1).secure)) = true := by
      cases hs : r.setting.cookie.secure with
      | false => simp [kept, hs]
      | true => simp [kept, a5 hs]
    unfold sends
    split
    · rfl
    · rename_i hd0
      rw [if_neg (by rw [hacc]; rcases hip with h | h <;> simp [h])]
      split
      · rename_i hfl
        rw [if_neg, hpath]
        · exact hsec
        · intro hne
          apply hne
          show k.1 = request.host
          by_cases ho : r.setting.HostOnly
          · rw [hk.2.2.1 ho, a1 ho]
          · obtain ⟨q, hq, h1, h2⟩ := hf.flag _ hfl
            have h1 : q.setting.IsKey isIp acceptIps k := by
              have e : ((kept r.setting k.1).domain, (kept r.setting k.1).name) = k := Prod.ext rfl hname'
              rw [e] at h1; exact h1
            exact absurd h2 (hflag ho q hq h1)
      · rename_i hfl
        have hdom : domainsMatch isIp (kept r.setting k.1).domain request.host = true := by
          show domainsMatch isIp k.1 request.host = true
          by_cases ho : r.setting.HostOnly
          · rw [hk.2.2.1 ho, a1 ho]; simp [domainsMatch]
          · refine domainsMatch_complete isIp _ _ hd0 ?_
            rw [(hk.2.2.2 ho).1]
            exact (a2 ho).2
        rw [hdom, hpath]
        exact hsec
  -- and nothing else under its name
  obtain ⟨e, he, hen⟩ := keys_foldl_dput (cs := jar.all.filter (sends isIp jar request)) [] k.2
    (Or.inr ⟨_, List.mem_filter.mpr ⟨hmem, hsend⟩, hname'⟩)
  rcases mem_foldl_dput he with h | ⟨c, hc, h⟩
  · cases h
  · have hall := (List.mem_filter.mp hc).1
    unfold Jar.all at hall
    obtain ⟨d, hd, hx'⟩ := List.mem_flatMap.mp hall
    obtain ⟨x, hxm, rfl⟩ := List.mem_map.mp hx'
    obtain ⟨q, h1, h2, -⟩ := hf.entry d hd x hxm
    have hqk := (fun (⟨_, _, _, h, _⟩ : Last isIp acceptIps (live ops) q (d.1, x.1)) => h) h1
    have e1 : (d.1, x.1) = k := by
      refine hname q h1.mem _ hqk ?_
      have : x.2.name = k.2 := by rw [h] at hen; exact hen
      rw [← this, h2]
      exact hqk.2.1
    rw [e1] at h1
    have e2 := h1.unique hr
    subst e2
    rw [h, h2] at he
    exact he

/-- **C95, violated.** A cookie set for three seconds, and set again without an end before these are over, ends with them. -/
theorem C95_session_violated :
    (((Jar.new false 0).runAll (fun _ => false)
        [.update 0 (some ['x']) ['/'] [{ name := ['c'], value := ['1'], maxAge := some (some 3) }],
          .update 1000 (some ['x']) ['/'] [{ name := ['c'], value := ['2'] }]]).filter
      (fun _ => false) 5000 ⟨['x'], ['/'], true⟩).1 = [] := by decide

/-- **C95, violated.** A cookie set for the host only, and set again for the domain, still is for the host only. -/
theorem C95_domain_violated :
    (((Jar.new false 0).runAll (fun _ => false)
        [.update 0 (some ['x']) ['/'] [{ name := ['c'], value := ['1'] }],
          .update 1000 (some ['x']) ['/'] [{ name := ['c'], value := ['2'], domain := ['x'] }]]).filter
      (fun _ => false) 5000 ⟨['a', '.', 'x'], ['/'], true⟩).1 = [] := by decide

/-- **C95, violated.** Of two cookies of a name for different paths only the last is in the jar. -/
theorem C95_path_violated :
    (((Jar.new false 0).runAll (fun _ => false)
        [.update 0 (some ['x']) ['/'] [{ name := ['c'], value := ['1'], path := ['/', 'a'] }, { name := ['c'], value := ['2'], path := ['/', 'b'] }]]).filter
      (fun _ => false) 5000 ⟨['x'], ['/', 'a'], true⟩).1 = [] := by decide

/-- **C95, violated.** Of two cookies of a name for a host and for its domain only one is sent. -/
theorem C95_name_violated :
    (((Jar.new false 0).runAll (fun _ => false)
        [.update 0 (some ['a', '.', 'x']) ['/'] [{ name := ['c'], value := ['1'], domain := ['x'] }, { name := ['c'], value := ['2'] }]]).filter
      (fun _ => false) 5000 ⟨['a', '.', 'x'], ['/'], true⟩).1 = [(['c'], ['2'])] := by decide

example : (['c'], ['1']) ∈ (((Jar.new false 0).runAll (fun _ => false)
    [.update 0 (some ['a', '.', 'x']) ['/', 'p', '/', 'q'] [{ name := ['c'], value := ['1'], domain := ['x'], secure := true }, { name := ['d'], value := ['2'] }]]).filter
      (fun _ => false) 5000 ⟨['b', '.', 'x'], ['/', 'p', '/', 'r'], true⟩).1 := by decide

end Verif.Cookie
