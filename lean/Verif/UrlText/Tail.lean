import Verif.UrlText.Lemmas
import Verif.UrlText.Model

/-! The end of a url: what of it is the query and what the fragment. -/
namespace Verif.UrlText

/-- `\d` and `\s` of ASCII characters; of others they may be anything. -/
structure Classes.Fine (K : Classes) : Prop where
  digit : ∀ c : Char, c.toNat < 128 → K.digit c = isDigit c
  space : ∀ c : Char, 33 ≤ c.toNat → c.toNat < 127 → K.space c = false

/-- Python's, of ASCII characters. -/
def ascii : Classes := ⟨isDigit, fun c => c == ' ' || (9 ≤ c.toNat && c.toNat ≤ 13) || (28 ≤ c.toNat && c.toNat ≤ 31)⟩

theorem ascii_fine : ascii.Fine := by
  refine ⟨fun _ _ => rfl, fun c h h' => ?_⟩
  have : c ≠ ' ' := fun e => by subst e; exact absurd h (by decide)
  simp [ascii, this]
  omega

/-! ### Repeating a character -/

/-- Taking as much as possible. -/
theorem greedy_run {α : Type} {p : Char → Bool} {k : Pos → Option α} {x : α} {r : Text} {caps : List (Nat × Text)}
    (hk : ∀ pv, k ⟨pv, r, caps⟩ = some x) : ∀ (w : Text) (n : Nat) (pv : Option Char), (∀ c ∈ w, p c = true) →
    (∀ c t, r = c :: t → p c = false) → w.length ≤ n → loop (Re.chr p).run true k n ⟨pv, w ++ r, caps⟩ = some x := by
  intro w
  induction w with
  | nil =>
    intro n pv _ hr _
    cases n with
    | zero => exact hk pv
    | succ n =>
      have : (Re.chr p).run ⟨pv, r, caps⟩ (loop (Re.chr p).run true k n) = none := by
        cases r with
        | nil => rfl
        | cons c t => simp [Re.run, hr c t rfl]
      simp [loop, this, hk]
  | cons c w ih =>
    intro n pv hw hr hn
    cases n with
    | zero => simp at hn
    | succ n =>
      have : (Re.chr p).run ⟨pv, c :: w ++ r, caps⟩ (loop (Re.chr p).run true k n) = some x := by
        show (if p c = true then _ else none) = some x
        rw [if_pos (hw c List.mem_cons_self)]
        exact ih n _ (fun d hd => hw d (List.mem_cons_of_mem _ hd)) hr (by simp at hn; omega)
      show (if true = true then Option.or _ _ else _) = some x
      rw [if_pos rfl, this]
      rfl

/-- Taking as little as possible. -/
theorem lazy_run {α : Type} {p : Char → Bool} {k : Pos → Option α} {x : α} {r : Text} {caps : List (Nat × Text)}
    (hk : ∀ pv, k ⟨pv, r, caps⟩ = some x) : ∀ (w : Text) (n : Nat) (pv : Option Char), (∀ c ∈ w, p c = true) →
    (∀ w₁ w₂ pv, w = w₁ ++ w₂ → w₂ ≠ [] → k ⟨pv, w₂ ++ r, caps⟩ = none) → w.length ≤ n →
    loop (Re.chr p).run false k n ⟨pv, w ++ r, caps⟩ = some x := by
  intro w
  induction w with
  | nil =>
    intro n pv _ _ _
    cases n with
    | zero => exact hk pv
    | succ n => simp [loop, hk]
  | cons c w ih =>
    intro n pv hw hr hn
    cases n with
    | zero => simp at hn
    | succ n =>
      have : (Re.chr p).run ⟨pv, c :: w ++ r, caps⟩ (loop (Re.chr p).run false k n) = some x := by
        show (if p c = true then _ else none) = some x
        rw [if_pos (hw c List.mem_cons_self)]
        exact ih n _ (fun d hd => hw d (List.mem_cons_of_mem _ hd))
          (fun w₁ w₂ pv e h => hr (c :: w₁) w₂ pv (by rw [e]; rfl) h) (by simp at hn; omega)
      have hz := hr [] (c :: w) pv rfl (by simp)
      show (if false = true then _ else (k _).or _) = some x
      rw [if_neg (by decide), hz]
      exact this

/-! ### Characters -/

theorem lower_eq : ∀ a b : Char, a.toLower = b → (a = b ∨ ('A' ≤ a ∧ a ≤ 'Z' ∧ b.toNat = a.toNat + 32)) := by
  intro a b h
  unfold Char.toLower at h
  split at h
  · right
    rename_i hh
    refine ⟨hh.1, hh.2, ?_⟩
    subst h
    have h2 : a.val.toNat ≤ 90 := hh.2
    show (a.val + 32).toNat = a.val.toNat + 32
    rw [UInt32.toNat_add]
    have : (32 : UInt32).toNat = 32 := rfl
    omega
  · exact .inl h

/-- A character which is not a letter has no other case. -/
theorem same_iff {a : Char} (ha : a.toLower = a) (hn : a.toNat < 97 ∨ 122 < a.toNat) (c : Char) : same a c = true ↔ c = a := by
  constructor
  · intro h
    have hk : a ≠ 'k' := fun e => by subst e; exact absurd hn (by decide)
    have hs : a ≠ 's' := fun e => by subst e; exact absurd hn (by decide)
    have hi : a ≠ 'i' := fun e => by subst e; exact absurd hn (by decide)
    simp only [same, Bool.or_eq_true, beq_iff_eq, Bool.and_eq_true, ha] at h
    rcases h with (((h | h) | ⟨h, _⟩) | ⟨h, _⟩) | ⟨h, _⟩
    · exact h
    · rcases lower_eq c a h with h | ⟨h', h, e⟩
      · exact h
      · have h' : 65 ≤ c.toNat := h'
        have h : c.toNat ≤ 90 := h
        omega
    · exact absurd h hk
    · exact absurd h hs
    · exact absurd h hi
  · intro h; subst h; simp [same]

theorem char_sem {a : Char} (ha : a.toLower = a) (hn : a.toNat < 97 ∨ 122 < a.toNat) {s t : Pos} (h : (char a).Sem s t) :
    s.rest = a :: t.rest ∧ t = ⟨some a, t.rest, s.caps⟩ := by
  obtain ⟨c, r, e, hc, ht⟩ := h
  cases (same_iff ha hn c).1 hc
  subst ht
  exact ⟨e, rfl⟩

theorem char_run {α : Type} {a : Char} (pv : Option Char) (r : Text) (caps : List (Nat × Text)) (k : Pos → Option α) :
    (char a).run ⟨pv, a :: r, caps⟩ k = k ⟨some a, r, caps⟩ := by
  show (if same a a = true then _ else none) = _
  rw [if_pos (by simp [same])]

theorem char_none {α : Type} {a : Char} (ha : a.toLower = a) (hn : a.toNat < 97 ∨ 122 < a.toNat) {s : Pos} (k : Pos → Option α)
    (h : ∀ r, s.rest ≠ a :: r) : (char a).run s k = none := by
  cases hr : (char a).run s k with
  | none => rfl
  | some x =>
    obtain ⟨t, ht, _⟩ := sound _ _ _ _ hr
    exact absurd (char_sem ha hn ht).1 (h _)

/-! ### The end of a url -/

/-- A query and a fragment as text. -/
def tailOf (q f : Option Text) : Text := (q.map ('?' :: ·)).getD [] ++ (f.map ('#' :: ·)).getD []

/-- The groups of them. -/
def tailCaps (q f : Option Text) : List (Nat × Text) :=
  (match f with | none => [] | some [] => [] | some f => [(16, f)]) ++ (match q with | none => [] | some q => [(15, q)])

/-- The end of `fullmatch`. -/
def fin (t : Pos) : Option (List (Nat × Text)) := if t.rest = [] then some t.caps else none

variable {K : Classes}

theorem star_chr_sem {g : Bool} {p : Char → Bool} {s t : Pos} (h : (Re.star g (.chr p)).Sem s t) :
    ∃ w, s.rest = w ++ t.rest ∧ (∀ c ∈ w, p c = true) ∧ t.caps = s.caps := by
  obtain ⟨w, hw⟩ := eats _ _ _ h
  obtain ⟨l, e, hl⟩ := hw.caps
  refine ⟨w, hw.rest, hw.chars, ?_⟩
  cases l with
  | nil => exact e
  | cons a l => exact absurd (hl a List.mem_cons_self) (by simp [Re.groups])

theorem fragment_eq {α : Type} (s : Pos) (k : Pos → Option α) : (fragmentRp K).run s k =
    ((char '#').run s fun t => ((Re.cap 16 (.plus (full K))).run t k).or (k t)).or (k s) := rfl

theorem query_eq {α : Type} (s : Pos) (k : Pos → Option α) : (queryRp K).run s k =
    ((char '?').run s fun t => ((Re.cap 15 (.star false (full K))).run t k).or (k t)).or (k s) := rfl

theorem fragment_run (pv : Option Char) (f : Text) (caps : List (Nat × Text)) (hf : ∀ c ∈ f, K.space c = false) :
    (fragmentRp K).run ⟨pv, '#' :: f, caps⟩ fin = some (tailCaps none (some f) ++ caps) := by
  rw [fragment_eq, char_run]
  cases f with
  | nil => rfl
  | cons c f =>
    have : (Re.cap 16 (.plus (full K))).run ⟨some '#', c :: f, caps⟩ fin = some ((16, c :: f) :: caps) := by
      show (if (!K.space c) = true then _ else none) = _
      rw [if_pos (by simp [hf c List.mem_cons_self])]
      have := greedy_run (p := fun x => !K.space x) (x := (16, c :: f) :: caps) (r := []) (caps := caps)
        (k := fun t => fin { t with caps := (16, (c :: f).take ((c :: f).length - t.rest.length)) :: t.caps })
        (fun _ => by simp [fin]) f f.length (some c) (fun d hd => by simp [hf d (List.mem_cons_of_mem _ hd)])
        (fun _ _ h => by cases h) (Nat.le_refl _)
      rw [List.append_nil] at this
      exact this
    rw [this]
    rfl

theorem fragment_nil (pv : Option Char) (caps : List (Nat × Text)) : (fragmentRp K).run ⟨pv, [], caps⟩ fin = some caps := rfl

theorem fragment_sem {s t : Pos} (h : (fragmentRp K).Sem s t) (ht : t.rest = []) :
    ∃ f : Option Text, s.rest = tailOf none f ∧ ∀ c ∈ f.getD [], K.space c = false := by
  rcases h with ⟨m, hm, h⟩ | h
  · have h1 := (char_sem rfl (.inl (by decide)) hm).1
    rcases h with h | h
    · obtain ⟨w, m', _, hw, e, _⟩ := eats_cap h
      rw [ht, List.append_nil] at e
      refine ⟨some w, by rw [h1, e]; rfl, fun c hc => ?_⟩
      have := hw.chars c hc
      simpa [Re.alphabet, Re.plus, full] using this
    · cases (show t = m from h)
      exact ⟨some [], by rw [h1, ht]; rfl, fun _ h => (by cases h)⟩
  · cases (show t = s from h)
    exact ⟨none, by rw [ht]; rfl, fun _ h => (by cases h)⟩

theorem fragment_none {s : Pos} (h : ∀ r, s.rest ≠ '#' :: r) (hn : s.rest ≠ []) : (fragmentRp K).run s fin = none := by
  cases hr : (fragmentRp K).run s fin with
  | none => rfl
  | some x =>
    obtain ⟨t, ht, hx⟩ := sound _ _ _ _ hr
    have he : t.rest = [] := by
      simp only [fin] at hx
      split at hx
      · assumption
      · cases hx
    obtain ⟨f, e, _⟩ := fragment_sem ht he
    cases f with
    | none => exact absurd e hn
    | some f => exact absurd e (h f)

/-- What is found at the end, the fragment being after the first `#`. -/
theorem tail_run (pv : Option Char) (q f : Option Text) (caps : List (Nat × Text)) (hq : '#' ∉ q.getD [])
    (sq : ∀ c ∈ q.getD [], K.space c = false) (sf : ∀ c ∈ f.getD [], K.space c = false) :
    (queryRp K).run ⟨pv, tailOf q f, caps⟩ (fun t => (fragmentRp K).run t fin) = some (tailCaps q f ++ caps) := by
  have frag : ∀ pv caps, (fragmentRp K).run ⟨pv, tailOf none f, caps⟩ fin = some (tailCaps none f ++ caps) := by
    intro pv caps
    cases f with
    | none => rfl
    | some f =>
      have := fragment_run (K := K) pv f caps sf
      exact this
  cases q with
  | none =>
    rw [query_eq, char_none rfl (.inl (by decide)) _ (by intro r h; cases f <;> cases h)]
    exact frag pv caps
  | some q =>
    rw [show tailOf (some q) f = '?' :: (q ++ tailOf none f) from rfl, query_eq, char_run]
    have : (Re.cap 15 (.star false (full K))).run ⟨some '?', q ++ tailOf none f, caps⟩ (fun t => (fragmentRp K).run t fin) =
        some (tailCaps none f ++ (15, q) :: caps) := by
      refine lazy_run (p := fun x => !K.space x) (r := tailOf none f) (caps := caps) ?_ q _ (some '?') ?_ ?_ (by simp)
      · intro pv
        have : (q ++ tailOf none f).take ((q ++ tailOf none f).length - (tailOf none f).length) = q := by simp
        show (fragmentRp K).run ⟨pv, tailOf none f, (15, (q ++ tailOf none f).take _) :: caps⟩ fin = _
        rw [this]
        exact frag pv _
      · intro c hc; simp [sq c hc]
      · intro w₁ w₂ pv e hne
        refine fragment_none ?_ ?_
        · intro r hr
          cases w₂ with
          | nil => exact hne rfl
          | cons c w₂ =>
            have : c = '#' := (List.cons.inj hr).1
            subst this
            exact hq (by rw [show (some q).getD [] = q from rfl, e]; simp)
        · intro h
          exact hne (List.append_eq_nil_iff.1 h).1
    rw [this]
    cases f with
    | none => rfl
    | some f => cases f <;> rfl

theorem first_of {x : Char} : ∀ {l : Text}, x ∈ l → ∃ a b, l = a ++ x :: b ∧ x ∉ a := by
  intro l
  induction l with
  | nil => intro h; cases h
  | cons c l ih =>
    intro h
    by_cases hc : c = x
    · subst hc; exact ⟨[], l, rfl, by simp⟩
    · rcases List.mem_cons.1 h with h | h
      · exact absurd h.symm hc
      · obtain ⟨a, b, e, ha⟩ := ih h
        refine ⟨c :: a, b, by rw [e]; rfl, ?_⟩
        intro h
        rcases List.mem_cons.1 h with h | h
        · exact hc h.symm
        · exact ha h

/-- The end of a match is a query and a fragment. -/
theorem tail_found {s : Pos} {g : List (Nat × Text)} (h : (queryRp K).run s (fun t => (fragmentRp K).run t fin) = some g) :
    ∃ q f, s.rest = tailOf q f ∧ '#' ∉ q.getD [] ∧ (∀ c ∈ q.getD [], K.space c = false) ∧ (∀ c ∈ f.getD [], K.space c = false) ∧
      g = tailCaps q f ++ s.caps := by
  have key : ∃ q f, s.rest = tailOf q f ∧ '#' ∉ q.getD [] ∧ (∀ c ∈ q.getD [], K.space c = false) ∧
      (∀ c ∈ f.getD [], K.space c = false) := by
    obtain ⟨m, hm, h⟩ := sound _ _ _ _ h
    obtain ⟨t, ht, h⟩ := sound _ _ _ _ h
    have he : t.rest = [] := by
      simp only [fin] at h
      split at h
      · assumption
      · cases h
    obtain ⟨f, ef, sf⟩ := fragment_sem ht he
    rcases hm with ⟨m', hm', hm⟩ | hm
    · have h1 := (char_sem rfl (.inl (by decide)) hm').1
      have : ∃ q, m'.rest = q ++ m.rest ∧ ∀ c ∈ q, K.space c = false := by
        rcases hm with hm | hm
        · obtain ⟨w, m'', _, hw, e, _⟩ := eats_cap hm
          refine ⟨w, e, fun c hc => ?_⟩
          have := hw.chars c hc
          simpa [Re.alphabet, full] using this
        · cases (show m = m' from hm)
          exact ⟨[], rfl, fun _ h => (by cases h)⟩
      obtain ⟨q, eq, sq⟩ := this
      by_cases hh : '#' ∈ q
      · obtain ⟨a, b, e, ha⟩ := first_of hh
        refine ⟨some a, some (b ++ m.rest), ?_, ha, fun c hc => sq c (by rw [e]; exact List.mem_append_left _ hc), ?_⟩
        · rw [h1, eq, e]; simp [tailOf]
        · intro c hc
          rcases List.mem_append.1 hc with hc | hc
          · exact sq c (by rw [e]; exact List.mem_append_right _ (List.mem_cons_of_mem _ hc))
          · rw [ef] at hc
            cases f with
            | none => cases hc
            | some f =>
              rcases List.mem_cons.1 hc with hc | hc
              · subst hc; exact sq _ hh
              · exact sf c hc
      · exact ⟨some q, f, by rw [h1, eq, ef]; rfl, hh, sq, sf⟩
    · cases (show m = s from hm)
      exact ⟨none, f, ef, by simp, fun _ h => (by cases h), sf⟩
  obtain ⟨q, f, e, hq, sq, sf⟩ := key
  refine ⟨q, f, e, hq, sq, sf, ?_⟩
  obtain ⟨pv, r, caps⟩ := s
  cases (show r = tailOf q f from e)
  rw [tail_run pv q f caps hq sq sf] at h
  exact (Option.some.inj h).symm

/-! ### The characters before it -/

theorem host_alphabet {K L : Classes} {c : Char} (h : K.digit c = L.digit c) : (hostRp K).alphabet c = (hostRp L).alphabet c := by
  simp only [hostRp, localV4, otherV4, dotMid, dotEnd, byteMid, byteEnd, dig, alts, seqs, Re.alphabet, Re.times, Re.between, Re.upTo,
    Re.opt, Re.plus, Re.many, h]

/-- No digits at all. -/
def bare : Classes := ⟨fun _ => false, fun _ => false⟩

/-- What is not a digit is in no host if it is in none without digits. -/
theorem not_host {c : Char} (h : K.digit c = false) (hc : (hostRp bare).alphabet c = false) : (hostRp K).alphabet c = false := by
  rw [host_alphabet (L := bare) h, hc]

theorem not_authority {c : Char} (h : K.digit c = false) (hc : (hostRp bare).alphabet c = false) (hu : userRp.alphabet c = false)
    (hx : same '/' c = false ∧ same ':' c = false) : (authorityRp K).alphabet c = false := by
  have hs : (lit "//").alphabet c = false := by
    show (same '/' c || same '/' c) = false
    rw [hx.1]; rfl
  simp only [authorityRp, Re.opt, seqs, hs, Re.alphabet, hu, not_host h hc, Re.between, Re.times, Re.upTo, dig, h, char]
  simp [hx.2]

theorem seq_run {α : Type} (a b : Re) (s : Pos) (k : Pos → Option α) : (a.seq b).run s k = a.run s fun t => b.run t k := rfl

theorem urlRp_eq : urlRp K = schemeRp.seq ((authorityRp K).seq (pathRp.seq ((queryRp K).seq (fragmentRp K)))) := rfl

/-- A url is what is before the query, and the end. -/
theorem found {v : Text} {g : List (Nat × Text)} (h : (urlRp K).full v = some g) :
    ∃ t q f, (schemeRp.seq ((authorityRp K).seq pathRp)).Sem ⟨none, v, []⟩ t ∧ t.rest = tailOf q f ∧ '#' ∉ q.getD [] ∧
      g = tailCaps q f ++ t.caps := by
  rw [Re.full, urlRp_eq, seq_run] at h
  obtain ⟨a, ha, h⟩ := sound _ _ _ _ h
  rw [seq_run] at h
  obtain ⟨b, hb, h⟩ := sound _ _ _ _ h
  rw [seq_run] at h
  obtain ⟨t, ht, h⟩ := sound _ _ _ _ h
  rw [seq_run] at h
  obtain ⟨q, f, e, hq, _, _, hg⟩ := tail_found h
  exact ⟨t, q, f, ⟨a, ha, b, hb, ht⟩, e, hq, hg⟩

end Verif.UrlText
