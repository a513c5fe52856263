import Verif.Credentials.Model

/-!
# Basic authorization

C209: an authorization is read from the header it is written to. C210: the headers which are accepted.
-/
namespace Verif.Credentials

/-! ### Regular expressions -/

theorem greedy_sound {α : Type} {p : Nat → Bool} {s : Text} : ∀ {k : Text → Text → Option α} {x : α}, greedy p k s = some x →
    ∃ w r, s = w ++ r ∧ (∀ c ∈ w, p c = true) ∧ k w r = some x := by
  induction s with
  | nil => intro k x h; exact ⟨[], [], rfl, nofun, h⟩
  | cons c s ih =>
    intro k x h
    rw [greedy] at h
    split at h
    · next hp =>
      cases hg : greedy p (fun w r' => k (c :: w) r') s with
      | some y =>
        rw [hg] at h
        obtain ⟨w, r, e, hw, hk⟩ := ih hg
        refine ⟨c :: w, r, by rw [e]; rfl, ?_, hk.trans h⟩
        intro d hd
        rcases List.mem_cons.1 hd with e | hd
        · rw [e]; exact hp
        · exact hw d hd
      | none =>
        rw [hg] at h
        exact ⟨[], c :: s, rfl, nofun, h⟩
    · exact ⟨[], c :: s, rfl, nofun, h⟩

theorem plus_sound {α : Type} {p : Nat → Bool} {s : Text} {k : Text → Text → Option α} {x : α} (h : plus p k s = some x) :
    ∃ w r, s = w ++ r ∧ w ≠ [] ∧ (∀ c ∈ w, p c = true) ∧ k w r = some x := by
  cases s with
  | nil => exact absurd h nofun
  | cons c s =>
    rw [plus] at h
    split at h
    · next hp =>
      obtain ⟨w, r, e, hw, hk⟩ := greedy_sound h
      refine ⟨c :: w, r, by rw [e]; rfl, nofun, ?_, hk⟩
      intro d hd
      rcases List.mem_cons.1 hd with e | hd
      · rw [e]; exact hp
      · exact hw d hd
    · exact absurd h nofun

theorem lazy_sound {α : Type} {p : Nat → Bool} {s : Text} : ∀ {k : Text → Text → Option α} {x : α}, lazy p k s = some x →
    ∃ w r, s = w ++ r ∧ (∀ c ∈ w, p c = true) ∧ k w r = some x := by
  induction s with
  | nil => intro k x h; exact ⟨[], [], rfl, nofun, h⟩
  | cons c s ih =>
    intro k x h
    rw [lazy] at h
    cases hk : k [] (c :: s) with
    | some y =>
      rw [hk] at h
      exact ⟨[], c :: s, rfl, nofun, hk.trans h⟩
    | none =>
      rw [hk] at h
      simp only [Option.orElse] at h
      split at h
      · next hp =>
        obtain ⟨w, r, e, hw, hk⟩ := ih h
        refine ⟨c :: w, r, by rw [e]; rfl, ?_, hk⟩
        intro d hd
        rcases List.mem_cons.1 hd with e | hd
        · rw [e]; exact hp
        · exact hw d hd
      · exact absurd h nofun

/-- The text does not begin with a character of the class. -/
def Stops (p : Nat → Bool) (r : Text) : Prop := ∀ c, r.head? = some c → p c = false

theorem greedy_run {α : Type} {p : Nat → Bool} {w r : Text} {x : α} : ∀ {k : Text → Text → Option α}, (∀ c ∈ w, p c = true) → Stops p r →
    k w r = some x → greedy p k (w ++ r) = some x := by
  induction w with
  | nil =>
    intro k _ hr hk
    cases r with
    | nil => exact hk
    | cons c r =>
      show greedy p k (c :: r) = _
      rw [greedy, if_neg (by rw [hr c rfl]; exact nofun)]
      exact hk
  | cons c w ih =>
    intro k hw hr hk
    show greedy p k (c :: (w ++ r)) = _
    rw [greedy, if_pos (hw c (by simp)), ih (k := fun w r' => k (c :: w) r') (fun d hd => hw d (by simp [hd])) hr hk]
    rfl

theorem plus_run {α : Type} {p : Nat → Bool} {w r : Text} {x : α} {k : Text → Text → Option α} (hw : ∀ c ∈ w, p c = true) (hn : w ≠ [])
    (hr : Stops p r) (hk : k w r = some x) : plus p k (w ++ r) = some x := by
  obtain ⟨c, w, rfl⟩ := List.exists_cons_of_ne_nil hn
  show plus p k (c :: (w ++ r)) = _
  rw [plus, if_pos (hw c (by simp))]
  exact greedy_run (k := fun w r' => k (c :: w) r') (fun d hd => hw d (by simp [hd])) hr hk

/-- The shortest run which lets go on is taken. -/
theorem lazy_run {α : Type} {p : Nat → Bool} {w r : Text} {x : α} : ∀ {k : Text → Text → Option α}, (∀ c ∈ w, p c = true) →
    (∀ u c v, w = u ++ c :: v → k u (c :: v ++ r) = none) → k w r = some x → lazy p k (w ++ r) = some x := by
  induction w with
  | nil =>
    intro k _ _ hk
    cases r with
    | nil => exact hk
    | cons c r =>
      show lazy p k (c :: r) = _
      rw [lazy]
      have hk : k [] (c :: r) = some x := hk
      rw [hk]; rfl
  | cons c w ih =>
    intro k hw hs hk
    show lazy p k (c :: (w ++ r)) = _
    have h0 := hs [] c w rfl
    rw [lazy]
    have h0 : k [] (c :: (w ++ r)) = none := h0
    rw [h0]
    simp only [Option.orElse]
    rw [if_pos (hw c (by simp))]
    exact ih (k := fun w r' => k (c :: w) r') (fun d hd => hw d (by simp [hd])) (fun u d v e => hs (c :: u) d v (by rw [e]; rfl)) hk

/-! ### Base 64 -/

theorem value_letter {v : Nat} (h : v < 64) : value (letter v) = some v := by
  unfold letter
  split
  · unfold value; rw [if_pos (by omega)]; congr 1; omega
  · split
    · unfold value; rw [if_neg (by omega), if_pos (by omega)]; congr 1; omega
    · split
      · unfold value; rw [if_neg (by omega), if_neg (by omega), if_pos (by omega)]; congr 1; omega
      · split
        · subst_vars; rfl
        · have : v = 63 := by omega
          subst this; rfl

theorem letter_ne {v : Nat} (h : v < 64) : letter v ≠ 61 := by
  intro e
  have h2 := value_letter h
  rw [e, show value 61 = none from by decide] at h2
  exact absurd h2 nofun

theorem letter_fine (v : Nat) (h : v < 64) : letter v < 128 ∧ white (letter v) = false ∧ letter v ≠ 10 := by
  have : ∀ v : Fin 64, letter v < 128 ∧ white (letter v) = false ∧ letter v ≠ 10 := by decide
  exact this ⟨v, h⟩

theorem decode_letter {v : Nat} (h : v < 64) (q left pads : Nat) (l : Text) : decodeLoop q left pads (letter v :: l) =
    if q = 0 then decodeLoop 1 v 0 l
    else if q = 1 then (decodeLoop 2 (v % 16) 0 l).map ((left * 4 + v / 16) :: ·)
    else if q = 2 then (decodeLoop 3 (v % 4) 0 l).map ((left * 16 + v / 4) :: ·)
    else (decodeLoop 0 0 0 l).map ((left * 64 + v) :: ·) := by
  rw [decodeLoop, if_neg (letter_ne h), value_letter h]

/-- What was encoded is decoded, whatever is behind it if it was padded. -/
theorem decode_encode (bs : List Nat) (h : ∀ b ∈ bs, b < 256) (junk : Text) (hj : junk = [] ∨ bs.length % 3 ≠ 0) :
    decodeLoop 0 0 0 (encode64 bs ++ junk) = some bs := by
  match bs with
  | [] =>
    rcases hj with rfl | hj
    · rfl
    · exact absurd rfl hj
  | [a] =>
    have ha := h a (by simp)
    show decodeLoop 0 0 0 (letter (a / 4) :: letter (a % 4 * 16) :: 61 :: 61 :: junk) = _
    rw [decode_letter (by omega), if_pos rfl, decode_letter (by omega), if_neg (by decide), if_pos rfl]
    simp only [decodeLoop]
    simp
    omega
  | [a, b] =>
    have ha := h a (by simp)
    have hb := h b (by simp)
    show decodeLoop 0 0 0 (letter (a / 4) :: letter (a % 4 * 16 + b / 16) :: letter (b % 16 * 4) :: 61 :: junk) = _
    rw [decode_letter (by omega), if_pos rfl, decode_letter (by omega), if_neg (by decide), if_pos rfl,
      decode_letter (by omega), if_neg (by decide), if_neg (by decide), if_pos rfl]
    simp only [decodeLoop]
    simp
    omega
  | a :: b :: c :: l =>
    have ha := h a (by simp)
    have hb := h b (by simp)
    have hc := h c (by simp)
    show decodeLoop 0 0 0 (letter (a / 4) :: letter (a % 4 * 16 + b / 16) :: letter (b % 16 * 4 + c / 64) :: letter (c % 64) :: (encode64 l ++ junk)) = _
    rw [decode_letter (by omega), if_pos rfl, decode_letter (by omega), if_neg (by decide), if_pos rfl,
      decode_letter (by omega), if_neg (by decide), if_neg (by decide), if_pos rfl,
      decode_letter (by omega), if_neg (by decide), if_neg (by decide), if_neg (by decide)]
    have hl : junk = [] ∨ l.length % 3 ≠ 0 := by
      rcases hj with hj | hj
      · exact .inl hj
      · right; simp only [List.length_cons] at hj; omega
    rw [decode_encode l (fun d hd => h d (by simp [hd])) junk hl]
    simp
    omega

theorem encode_fine (bs : List Nat) (h : ∀ b ∈ bs, b < 256) : ∀ c ∈ encode64 bs, c < 128 ∧ white c = false ∧ c ≠ 10 := by
  have pad : (61 : Nat) < 128 ∧ white 61 = false ∧ 61 ≠ 10 := by decide
  match bs with
  | [] => exact nofun
  | [a] =>
    have ha := h a (by simp)
    intro c hc
    simp only [encode64, List.mem_cons, List.not_mem_nil, or_false] at hc
    rcases hc with rfl | rfl | rfl | rfl
    · exact letter_fine _ (by omega)
    · exact letter_fine _ (by omega)
    · exact pad
    · exact pad
  | [a, b] =>
    have ha := h a (by simp)
    have hb := h b (by simp)
    intro c hc
    simp only [encode64, List.mem_cons, List.not_mem_nil, or_false] at hc
    rcases hc with rfl | rfl | rfl | rfl
    · exact letter_fine _ (by omega)
    · exact letter_fine _ (by omega)
    · exact letter_fine _ (by omega)
    · exact pad
  | a :: b :: c :: l =>
    have ha := h a (by simp)
    have hb := h b (by simp)
    have hc := h c (by simp)
    intro d hd
    simp only [encode64, List.mem_cons] at hd
    rcases hd with rfl | rfl | rfl | rfl | hd
    · exact letter_fine _ (by omega)
    · exact letter_fine _ (by omega)
    · exact letter_fine _ (by omega)
    · exact letter_fine _ (by omega)
    · exact encode_fine l (fun d hd => h d (by simp [hd])) d hd

theorem encode_ne {bs : List Nat} (h : bs ≠ []) : encode64 bs ≠ [] := by
  match bs with
  | [] => exact absurd rfl h
  | [a] => exact nofun
  | [a, b] => exact nofun
  | a :: b :: c :: l => exact nofun

/-! ### The two patterns -/

theorem matchHeader_run (w1 m w2 t w3 : Text) (h1 : ∀ c ∈ w1, white c = true) (h2 : ∀ c ∈ w2, white c = true) (h3 : ∀ c ∈ w3, white c = true)
    (hn : w2 ≠ []) (hm : ∀ c ∈ m, white c = false) (ht : ∀ c ∈ t, white c = false) (hm' : m ≠ []) (ht' : t ≠ []) :
    matchHeader (w1 ++ (m ++ (w2 ++ (t ++ w3)))) = some (m, t) := by
  have hdot : ∀ c, white c = false → dot c = true := by
    intro c hc
    unfold dot
    rw [bne_iff_ne]
    rintro rfl
    exact absurd hc (by decide)
  have stop : ∀ u v : Text, u ≠ [] → (∀ c ∈ u, white c = false) → Stops white (u ++ v) := by
    intro u v hu hw c hc
    obtain ⟨d, u, rfl⟩ := List.exists_cons_of_ne_nil hu
    simp only [List.cons_append, List.head?_cons, Option.some.injEq] at hc
    subst hc
    exact hw d (by simp)
  unfold matchHeader
  refine greedy_run h1 (stop m _ hm' hm) ?_
  refine lazy_run (fun c hc => hdot c (hm c hc)) ?_ ?_
  · intro u c v e
    simp only [List.cons_append, plus]
    rw [if_neg (by rw [hm c (by rw [e]; simp)]; exact nofun)]
  · refine plus_run h2 hn (stop t _ ht' ht) ?_
    refine lazy_run (fun c hc => hdot c (ht c hc)) ?_ ?_
    · intro u c v e
      simp only [List.cons_append, greedy]
      rw [if_neg (by rw [ht c (by rw [e]; simp)]; exact nofun)]
      rfl
    · have := greedy_run (p := white) (w := w3) (r := []) (x := (m, t)) (k := fun _ r => theEnd (m, t) r) h3 (fun c hc => absurd hc nofun) rfl
      simpa using this

theorem dots {p : Text} (hp : 10 ∉ p) : ∀ c ∈ p, dot c = true := by
  intro c hc
  unfold dot; rw [bne_iff_ne]
  rintro rfl; exact hp hc

theorem joinRest_colon {u p : Text} (hp : 10 ∉ p) : joinRest u (58 :: p) = some (u, some p) := by
  have := greedy_run (p := dot) (w := p) (r := []) (x := (u, some p)) (k := fun q r => theEnd (u, some q) r) (dots hp)
    (fun c hc => absurd hc nofun) rfl
  rw [List.append_nil] at this
  unfold joinRest
  rw [if_pos (show (58 :: p).head? = some 58 from rfl)]
  simp only [List.tail_cons]
  rw [this]; rfl

theorem joinRest_other {u : Text} {c : Nat} {r : Text} (hc : c ≠ 58) : joinRest u (c :: r) = none := by
  unfold joinRest
  rw [if_neg (by simpa using hc)]
  rfl

theorem matchJoin_run (u p : Text) (hu : 58 ∉ u) (hu' : 10 ∉ u) (hp : 10 ∉ p) : matchJoin (u ++ 58 :: p) = some (u, some p) := by
  unfold matchJoin
  refine lazy_run (dots hu') ?_ (joinRest_colon hp)
  intro a c v e
  exact joinRest_other (by rintro rfl; exact hu (by rw [e]; simp))

theorem matchHeader_sound {h m t : Text} (hh : matchHeader h = some (m, t)) :
    ∃ w1 w2 w3, h = w1 ++ m ++ w2 ++ t ++ w3 ∧ w2 ≠ [] ∧ ∀ c ∈ w1 ++ w2 ++ w3, white c = true := by
  obtain ⟨w1, r1, e1, h1, hh⟩ := greedy_sound hh
  obtain ⟨m', r2, e2, _, hh⟩ := lazy_sound hh
  obtain ⟨w2, r3, e3, hn, h2, hh⟩ := plus_sound hh
  obtain ⟨t', r4, e4, _, hh⟩ := lazy_sound hh
  obtain ⟨w3, r5, e5, h3, hh⟩ := greedy_sound hh
  unfold theEnd at hh
  split at hh
  · next hr =>
    simp only [Option.some.injEq, Prod.mk.injEq] at hh
    obtain ⟨rfl, rfl⟩ := hh
    subst hr
    refine ⟨w1, w2, w3, ?_, hn, ?_⟩
    · rw [e1, e2, e3, e4, e5]; simp
    · intro c hc
      simp only [List.mem_append] at hc
      rcases hc with (hc | hc) | hc
      · exact h1 c hc
      · exact h2 c hc
      · exact h3 c hc
  · exact absurd hh nofun

theorem newline_none {d : Text} (hd : 10 ∈ d) : ∀ f : Text → Text, lazy dot (fun w r => joinRest (f w) r) d = none := by
  intro f
  cases h : lazy dot (fun w r => joinRest (f w) r) d with
  | none => rfl
  | some x =>
    exfalso
    obtain ⟨w, r, e, hw, hk⟩ := lazy_sound h
    have nw : 10 ∉ w := fun hx => absurd (hw 10 hx) (by decide)
    have hr : 10 ∈ r := by
      rw [e] at hd
      exact (List.mem_append.1 hd).resolve_left nw
    have hn : ∀ y : Text × Option Text, theEnd y r = none := by
      intro y
      unfold theEnd
      rw [if_neg (by rintro rfl; exact absurd hr nofun)]
    unfold joinRest at hk
    rw [hn] at hk
    split at hk
    · cases hg : greedy dot (fun p r => theEnd (f w, some p) r) r.tail with
      | none => rw [hg] at hk; exact absurd hk nofun
      | some y =>
        obtain ⟨q, r', e', hq, hy⟩ := greedy_sound hg
        unfold theEnd at hy
        split at hy
        · next h0 =>
          subst h0
          next hh =>
          cases r with
          | nil => exact absurd hr nofun
          | cons c r =>
            simp only [List.head?_cons, Option.some.injEq] at hh
            subst hh
            simp only [List.tail_cons, List.append_nil] at e'
            subst e'
            rcases List.mem_cons.1 hr with hr | hr
            · exact absurd hr (by decide)
            · exact absurd (hq 10 hr) (by decide)
        · exact absurd hy nofun
    · exact absurd hk nofun

/-- What is before the first colon, and what is behind it. -/
theorem matchJoin_sound {d u : Text} {p : Option Text} (h : matchJoin d = some (u, p)) :
    10 ∉ d ∧ 58 ∉ u ∧ (p = none ∧ d = u ∨ ∃ q, p = some q ∧ d = u ++ 58 :: q) := by
  have hd : 10 ∉ d := by
    intro hd
    have := newline_none hd id
    rw [show lazy dot (fun w r => joinRest (id w) r) d = matchJoin d from rfl, h] at this
    exact absurd this nofun
  refine ⟨hd, ?_⟩
  have whole : ∀ d : Text, 58 ∉ d → 10 ∉ d → matchJoin d = some (d, none) := by
    intro d h1 h2
    have := lazy_run (p := dot) (w := d) (r := []) (x := (d, none)) (k := joinRest) (dots h2) (by
      intro a c v e
      exact joinRest_other (by rintro rfl; exact h1 (by rw [e]; simp))) rfl
    rw [List.append_nil] at this
    exact this
  by_cases hc : 58 ∈ d
  · obtain ⟨a, b, e, ha⟩ := List.eq_append_cons_of_mem hc
    have := matchJoin_run a b ha (fun hx => hd (by rw [e]; simp [hx])) (fun hx => hd (by rw [e]; simp [hx]))
    rw [← e, h] at this
    simp only [Option.some.injEq, Prod.mk.injEq] at this
    obtain ⟨rfl, rfl⟩ := this
    exact ⟨ha, .inr ⟨b, rfl, e⟩⟩
  · rw [whole d hc hd] at h
    simp only [Option.some.injEq, Prod.mk.injEq] at h
    obtain ⟨rfl, rfl⟩ := h
    exact ⟨hc, .inl ⟨rfl, rfl⟩⟩

/-! ### C209: writing and reading -/

/-- An encoding which gives bytes, decodes what it encoded, and has the codes of ASCII for its characters. -/
structure Codec.Fine (codec : Codec) : Prop where
  bytes : ∀ t bs, codec.encode t = some bs → ∀ b ∈ bs, b < 256
  back : ∀ t bs, codec.encode t = some bs → codec.decode bs = some t
  ascii : ∀ t, (∀ c ∈ t, c < 128) → codec.decode t = some t

/-- `'latin1'` -/
def latin1 : Codec := ⟨fun t => if t.all (· < 256) then some t else none, some⟩

theorem latin1_fine : latin1.Fine := by
  refine ⟨?_, ?_, fun _ _ => rfl⟩
  · intro t bs h
    simp only [latin1] at h
    split at h
    · next ht =>
      simp only [Option.some.injEq] at h
      subst h
      intro b hb
      have := List.all_eq_true.1 ht b hb
      simpa using this
    · exact absurd h nofun
  · intro t bs h
    simp only [latin1] at h
    split at h
    · exact h.symm
    · exact absurd h nofun

/-- The data which is joined is not empty, neither is what it is encoded to. -/
theorem joined_ne {codec : Codec} (hf : codec.Fine) {a : Auth} {bs : List Nat} (h : codec.encode (a.user ++ 58 :: a.password) = some bs) : bs ≠ [] := by
  rintro rfl
  have h1 := hf.back _ _ h
  have h2 := hf.ascii [] nofun
  rw [h2] at h1
  simp at h1

theorem toHeader_eq {codec : Codec} (hf : codec.Fine) {a : Auth} {h : Text} (hh : a.toHeader codec = some h) :
    ∃ bs, codec.encode (a.user ++ 58 :: a.password) = some bs ∧ h = basicBlank ++ encode64 bs := by
  unfold Auth.toHeader at hh
  cases he : codec.encode (a.user ++ 58 :: a.password) with
  | none => rw [he] at hh; exact absurd hh nofun
  | some bs =>
    rw [he] at hh
    simp only [Option.bind] at hh
    rw [hf.ascii (encode64 bs) (fun c hc => (encode_fine bs (hf.bytes _ _ he) c hc).1)] at hh
    simp only [Option.some.injEq] at hh
    exact ⟨bs, rfl, hh.symm⟩

/-- A header of the method basic, in any case and with any white space, of what was encoded; if the encoded text was
padded, anything but white space may follow. -/
theorem fromHeader_eq {codec : Codec} (w1 m w2 w3 junk : Text) (bs : List Nat) (d : Text) (h1 : ∀ c ∈ w1, white c = true)
    (h2 : ∀ c ∈ w2, white c = true) (h3 : ∀ c ∈ w3, white c = true) (hn : w2 ≠ []) (hm : m.map fold = basic) (hw : ∀ c ∈ m, white c = false)
    (hb : ∀ b ∈ bs, b < 256) (hne : bs ≠ []) (hj : ∀ c ∈ junk, c < 128 ∧ white c = false) (hj' : junk = [] ∨ bs.length % 3 ≠ 0)
    (hd : codec.decode bs = some d) :
    Auth.fromHeader codec (w1 ++ (m ++ (w2 ++ (encode64 bs ++ junk ++ w3)))) = (matchJoin d).bind fun (u, p) => some ⟨u, p.getD []⟩ := by
  have fine := encode_fine bs hb
  unfold Auth.fromHeader
  rw [matchHeader_run w1 m w2 (encode64 bs ++ junk) w3 h1 h2 h3 hn hw (by
    intro c hc
    rcases List.mem_append.1 hc with hc | hc
    · exact (fine c hc).2.1
    · exact (hj c hc).2) (by rintro rfl; exact absurd hm (by decide)) (by
    intro e
    exact encode_ne hne (List.append_eq_nil_iff.1 e).1)]
  simp only [Option.bind]
  rw [if_neg (fun h => h hm), if_neg (by
    rw [show (encode64 bs ++ junk).all (· < 128) = true from by
      rw [List.all_eq_true]
      intro c hc
      rcases List.mem_append.1 hc with hc | hc
      · simpa using (fine c hc).1
      · simpa using (hj c hc).1]
    exact nofun)]
  rw [show decode64 (encode64 bs ++ junk) = some bs from decode_encode bs hb junk hj']
  simp only [hd]

/-- A text which has a newline is not split. -/
theorem matchJoin_newline {d : Text} (hd : 10 ∈ d) : matchJoin d = none := newline_none hd id

/-- An authorization without newlines is read from the header it was written to. -/
theorem C209_round_trip_partial (codec : Codec) (hf : codec.Fine) (user password : Text) (a : Auth) (ha : Auth.new user password = some a)
    (hu : 10 ∉ user) (hp : 10 ∉ password) (h : Text) (hh : a.toHeader codec = some h) : Auth.fromHeader codec h = some ⟨user, password⟩ := by
  unfold Auth.new at ha
  split at ha
  · exact absurd ha nofun
  · next hc =>
    simp only [Option.some.injEq] at ha
    subst ha
    obtain ⟨bs, he, rfl⟩ := toHeader_eq hf hh
    have := fromHeader_eq (codec := codec) [] [66, 97, 115, 105, 99] [32] [] [] bs _ nofun (by decide) nofun nofun (by decide) (by decide)
      (hf.bytes _ _ he) (joined_ne hf he) nofun (.inl rfl) (hf.back _ _ he)
    simp only [List.nil_append, List.append_nil] at this
    rw [show basicBlank ++ encode64 bs = [66, 97, 115, 105, 99] ++ ([32] ++ encode64 bs) from rfl, this, matchJoin_run user password hc hu hp]
    rfl

/-- Every authorization which can be encoded is written. -/
theorem C209_written (codec : Codec) (hf : codec.Fine) (a : Auth) (he : codec.encode (a.user ++ 58 :: a.password) ≠ none) :
    ∃ h, a.toHeader codec = some h := by
  cases e : codec.encode (a.user ++ 58 :: a.password) with
  | none => exact absurd e he
  | some bs =>
    refine ⟨basicBlank ++ encode64 bs, ?_⟩
    unfold Auth.toHeader
    rw [e]
    simp only [Option.bind]
    rw [hf.ascii (encode64 bs) (fun c hc => (encode_fine bs (hf.bytes _ _ e) c hc).1)]

/-- The header of an authorization with a newline is refused. -/
theorem C209_newline_violated (codec : Codec) (hf : codec.Fine) (a : Auth) (h : Text) (hh : a.toHeader codec = some h)
    (hn : 10 ∈ a.user ∨ 10 ∈ a.password) : Auth.fromHeader codec h = none := by
  obtain ⟨bs, he, rfl⟩ := toHeader_eq hf hh
  have := fromHeader_eq (codec := codec) [] [66, 97, 115, 105, 99] [32] [] [] bs _ nofun (by decide) nofun nofun (by decide) (by decide)
    (hf.bytes _ _ he) (joined_ne hf he) nofun (.inl rfl) (hf.back _ _ he)
  simp only [List.nil_append, List.append_nil] at this
  rw [show basicBlank ++ encode64 bs = [66, 97, 115, 105, 99] ++ ([32] ++ encode64 bs) from rfl, this, matchJoin_newline]
  · rfl
  · rcases hn with hn | hn
    · simp [hn]
    · simp [hn]

/-- The pairs of bytes of `'utf-16-le'`, for the characters of the first plane. -/
def pairs : List Nat → Option Text
  | [] => some []
  | [_] => none
  | a :: b :: l => (pairs l).map ((a + 256 * b) :: ·)

/-- `'utf-16-le'`, without surrogates. -/
def utf16 : Codec := ⟨fun t => some (t.flatMap fun c => [c % 256, c / 256]), pairs⟩

/-- With an encoding of two bytes the header is not what it should be, and it is refused, though the encoding decodes
what it encodes: the encoded text is decoded with it too. -/
theorem C209_encoding_violated : ∃ h, (Auth.mk [97] []).toHeader utf16 = some h ∧ Auth.fromHeader utf16 h = none ∧
    utf16.encode [97, 58] = some [97, 0, 58, 0] ∧ utf16.decode [97, 0, 58, 0] = some [97, 58] ∧
    h ≠ basicBlank ++ encode64 [97, 0, 58, 0] := by
  refine ⟨[66, 97, 115, 105, 99, 32, 20825, 13889, 16705, 15677], ?_, ?_, ?_, ?_, ?_⟩ <;> decide +kernel

/-! ### C210: what is accepted -/

/-- What is accepted has the parts which it should have: white space, the method, white space, the token, white space.
The method is folded to `basic`, the token decodes to the user, or to the user and the password, joined by the first
colon. -/
theorem C210_accepted_partial (codec : Codec) (h : Text) (a : Auth) (ha : Auth.fromHeader codec h = some a) :
    58 ∉ a.user ∧ ∃ w1 m w2 t w3 bs d, h = w1 ++ m ++ w2 ++ t ++ w3 ∧ w2 ≠ [] ∧ (∀ c ∈ w1 ++ w2 ++ w3, white c = true) ∧
      m.map fold = basic ∧ (∀ c ∈ t, c < 128) ∧ decode64 t = some bs ∧ codec.decode bs = some d ∧ 10 ∉ d ∧
      (d = a.user ∧ a.password = [] ∨ d = a.user ++ 58 :: a.password) := by
  unfold Auth.fromHeader at ha
  cases hm : matchHeader h with
  | none => rw [hm] at ha; exact absurd ha nofun
  | some mt =>
    obtain ⟨m, t⟩ := mt
    rw [hm] at ha
    simp only [Option.bind] at ha
    split at ha
    · exact absurd ha nofun
    · next hb =>
      split at ha
      · exact absurd ha nofun
      · next ht =>
        cases h64 : decode64 t with
        | none => rw [h64] at ha; exact absurd ha nofun
        | some bs =>
          rw [h64] at ha
          simp only at ha
          cases hd : codec.decode bs with
          | none => rw [hd] at ha; exact absurd ha nofun
          | some d =>
            rw [hd] at ha
            simp only at ha
            cases hj : matchJoin d with
            | none => rw [hj] at ha; exact absurd ha nofun
            | some up =>
              obtain ⟨u, p⟩ := up
              rw [hj] at ha
              simp only [Option.some.injEq] at ha
              subst ha
              obtain ⟨h1, h2, h3⟩ := matchJoin_sound hj
              obtain ⟨w1, w2, w3, e, hn, hw⟩ := matchHeader_sound hm
              refine ⟨h2, w1, m, w2, t, w3, bs, d, e, hn, hw, by simpa using hb, ?_, h64, hd, h1, ?_⟩
              · simp only [Bool.not_eq_false, List.all_eq_true, decide_eq_true_eq] at ht
                exact ht
              · rcases h3 with ⟨rfl, rfl⟩ | ⟨q, rfl, rfl⟩
                · exact .inl ⟨rfl, rfl⟩
                · exact .inr rfl

/-- A header of the method basic in any case, with any white space around its parts, is accepted. -/
theorem C210_complete (codec : Codec) (hf : codec.Fine) (user password w1 w2 w3 m : Text) (bs : List Nat)
    (h1 : ∀ c ∈ w1, white c = true) (h2 : ∀ c ∈ w2, white c = true) (h3 : ∀ c ∈ w3, white c = true) (hn : w2 ≠ [])
    (hm : m.map fold = basic) (hw : ∀ c ∈ m, c < 128) (hb : codec.encode (user ++ 58 :: password) = some bs) (hc : 58 ∉ user)
    (hu : 10 ∉ user) (hp : 10 ∉ password) :
    Auth.fromHeader codec (w1 ++ m ++ w2 ++ encode64 bs ++ w3) = some ⟨user, password⟩ := by
  have := fromHeader_eq (codec := codec) w1 m w2 w3 [] bs _ h1 h2 h3 hn hm (by
    intro c hx
    have hl := hw c hx
    have hf : fold c ∈ basic := by rw [← hm]; exact List.mem_map_of_mem hx
    have : ∀ c : Fin 128, fold c ∈ basic → white c = false := by decide
    exact this ⟨c, hl⟩ hf) (hf.bytes _ _ hb) (joined_ne (a := ⟨user, password⟩) hf hb) nofun (.inl rfl) (hf.back _ _ hb)
  rw [matchJoin_run user password hc hu hp, List.append_nil] at this
  simp only [List.append_assoc]
  exact this

/-- A method which is not `basic` in any case is accepted: `'baſic'`. -/
theorem C210_method_violated : Auth.fromHeader latin1 [98, 97, 0x17F, 105, 99, 32, 89, 84, 112, 105] = some ⟨[97], [98]⟩ := by decide +kernel

/-- A token is accepted whatever is behind its padding. -/
theorem C210_token_violated (user password junk : Text) (hb : ∀ c ∈ user ++ 58 :: password, c < 256) (hc : 58 ∉ user) (hu : 10 ∉ user)
    (hp : 10 ∉ password) (hl : (user ++ 58 :: password).length % 3 ≠ 0) (hj : ∀ c ∈ junk, c < 128 ∧ white c = false) :
    Auth.fromHeader latin1 (basicBlank ++ encode64 (user ++ 58 :: password) ++ junk) = some ⟨user, password⟩ := by
  have := fromHeader_eq (codec := latin1) [] [66, 97, 115, 105, 99] [32] [] junk (user ++ 58 :: password) _ nofun (by decide) nofun nofun (by decide)
    (by decide) hb (by simp) hj (.inr hl) rfl
  rw [matchJoin_run user password hc hu hp] at this
  simp only [List.nil_append, List.append_nil] at this
  rw [show basicBlank ++ encode64 (user ++ 58 :: password) ++ junk =
    [66, 97, 115, 105, 99] ++ ([32] ++ (encode64 (user ++ 58 :: password) ++ junk)) from by simp [basicBlank], this]
  rfl

/-! ### Examples -/

-- C209: `Aladdin`, `open sesame`, as in RFC 7617
example : (Auth.mk [65, 108, 97, 100, 100, 105, 110] [111, 112, 101, 110, 32, 115, 101, 115, 97, 109, 101]).toHeader latin1 =
    some ("Basic QWxhZGRpbjpvcGVuIHNlc2FtZQ==".toList.map Char.toNat) := by decide +kernel
example : Auth.fromHeader latin1 ("Basic QWxhZGRpbjpvcGVuIHNlc2FtZQ==".toList.map Char.toNat) =
    some ⟨"Aladdin".toList.map Char.toNat, "open sesame".toList.map Char.toNat⟩ := by decide +kernel

-- C210
example : Auth.fromHeader latin1 (" bASIC \t YTpi ".toList.map Char.toNat) = some ⟨[97], [98]⟩ := by decide +kernel
example : Auth.fromHeader latin1 ("Bearer YTpi".toList.map Char.toNat) = none := by decide +kernel
example : Auth.fromHeader latin1 ("Basic Y".toList.map Char.toNat) = none := by decide +kernel

end Verif.Credentials
