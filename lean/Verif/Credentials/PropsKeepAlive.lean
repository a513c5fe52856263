import Verif.Credentials.KeepAlive
import Verif.Credentials.Props

/-!
# Keep-alive information

C211: the information is read from the header it is written to. C212: the parameters of a header.
-/
namespace Verif.Credentials.KeepAlive
open Verif.Credentials

/-! ### Numbers -/

theorem digit_showNat (n : Nat) : ∀ c ∈ showNat n, digit c = true := by
  intro c hc
  obtain ⟨d, hd, rfl⟩ := List.mem_map.1 hc
  have := Nat.isDigit_of_mem_toDigits (b := 10) (by decide) (by decide) hd
  simp only [Char.isDigit, Bool.and_eq_true, decide_eq_true_eq] at this
  have h1 : 48 ≤ d.toNat := this.1
  have h2 : d.toNat ≤ 57 := this.2
  simp [digit, h1, h2]

theorem showNat_ne (n : Nat) : showNat n ≠ [] := by
  unfold showNat
  intro h
  exact Nat.toDigits_ne_nil (List.map_eq_nil_iff.1 h)

theorem readNat_showNat (n : Nat) : readNat (showNat n) = n := by
  have step : ∀ n < 10, n.digitChar.toNat - 48 = n := by decide
  induction n using Nat.strongRecOn with
  | ind n ih =>
    unfold showNat readNat
    by_cases hn : n < 10
    · rw [Nat.toDigits_of_lt_base hn]
      simp [step n hn]
    · rw [Nat.toDigits_of_base_le (by decide) (by omega), List.map_append, List.foldl_append]
      have := ih (n / 10) (by omega)
      unfold showNat readNat at this
      rw [this]
      simp only [List.map_cons, List.map_nil, List.foldl_cons, List.foldl_nil]
      rw [step (n % 10) (by omega)]
      omega

theorem unsigned_showNat (n : Nat) : unsigned (showNat n) = some n := by
  unfold unsigned
  rw [if_pos ⟨showNat_ne n, List.all_eq_true.2 (digit_showNat n)⟩, readNat_showNat]

theorem takeWhile_all {p : Nat → Bool} {t : Text} (h : ∀ c ∈ t, p c = true) : t.takeWhile p = t ∧ t.dropWhile p = [] := by
  induction t with
  | nil => exact ⟨rfl, rfl⟩
  | cons c t ih =>
    obtain ⟨h1, h2⟩ := ih (fun d hd => h d (by simp [hd]))
    simp [List.takeWhile, List.dropWhile, h c (by simp), h1, h2]

theorem unsignedFraction_showNat (n : Nat) : unsignedFraction (showNat n) = some ((n : Int) : Rat) := by
  obtain ⟨h1, h2⟩ := takeWhile_all (digit_showNat n)
  simp only [unsignedFraction, h1, h2, unsigned_showNat]
  rfl

theorem head_showNat (n : Nat) : (showNat n).head? ≠ some 45 ∧ (showNat n).head? ≠ some 43 := by
  obtain ⟨c, l, e⟩ := List.exists_cons_of_ne_nil (showNat_ne n)
  have hc := digit_showNat n c (by rw [e]; simp)
  rw [e]
  simp only [List.head?_cons, ne_eq, Option.some.injEq]
  constructor
  · rintro rfl; exact absurd hc (by decide)
  · rintro rfl; exact absurd hc (by decide)

theorem readInt_showInt (n : Int) : readInt (showInt n) = some n := by
  unfold showInt
  split
  · next h =>
    unfold readInt
    rw [if_pos (show (45 :: showNat n.natAbs).head? = some 45 from rfl)]
    simp only [List.tail_cons, unsigned_showNat, Option.map_some, Option.some.injEq]
    omega
  · next h =>
    unfold readInt
    rw [if_neg (head_showNat _).1, if_neg (head_showNat _).2]
    simp only [unsigned_showNat, Option.map_some, Option.some.injEq]
    omega

theorem readFloat_showInt (n : Int) : readFloat (showInt n) = some (n : Rat) := by
  unfold showInt
  split
  · next h =>
    unfold readFloat
    rw [if_pos (show (45 :: showNat n.natAbs).head? = some 45 from rfl)]
    simp only [List.tail_cons, unsignedFraction_showNat, Option.map_some, Option.some.injEq]
    rw [← Rat.intCast_neg]
    congr 1
    omega
  · next h =>
    unfold readFloat
    rw [if_neg (head_showNat _).1, if_neg (head_showNat _).2]
    simp only [unsignedFraction_showNat, Option.some.injEq]
    congr 1
    omega

theorem nearest_int (n : Int) : nearest (n : Rat) = n := by
  unfold nearest
  simp only [Rat.floor_intCast]
  rw [if_pos (by rw [Rat.sub_self]; decide +kernel)]

/-! ### The parameters of a header -/

/-- A character of a key or a value as they should be. -/
def plain (c : Nat) : Bool := !white c && c != 61 && c != 44 && c != 36

/-- A parameter: what is around the key, the key, what is around the value, the value. -/
structure Param where
  w1 : Text
  key : Text
  w2 : Text
  w3 : Text
  value : Text
  w4 : Text

def Param.text (p : Param) : Text := p.w1 ++ (p.key ++ (p.w2 ++ 61 :: (p.w3 ++ (p.value ++ p.w4))))

structure Param.Fine (p : Param) : Prop where
  key : p.key ≠ [] ∧ ∀ c ∈ p.key, plain c = true
  value : p.value ≠ [] ∧ ∀ c ∈ p.value, plain c = true
  w1 : ∀ c ∈ p.w1, white c = true
  w2 : ∀ c ∈ p.w2, c = 32 ∨ c = 9
  w3 : ∀ c ∈ p.w3, white c = true
  w4 : ∀ c ∈ p.w4, c = 32 ∨ c = 9

/-- The text of parameters, with commas between them. -/
def join : List Param → Text
  | [] => []
  | [p] => p.text
  | p :: q :: l => p.text ++ 44 :: join (q :: l)

theorem plain_white {c : Nat} (h : plain c = true) : white c = false := by
  unfold plain at h
  simp only [Bool.and_eq_true, Bool.not_eq_true'] at h
  exact h.1.1.1

theorem plain_key {c : Nat} (h : plain c = true) : keyChar c = true := by
  have hw := plain_white h
  unfold plain at h
  unfold keyChar
  simp only [Bool.and_eq_true, Bool.not_eq_true', bne_iff_ne] at h ⊢
  refine ⟨⟨?_, ?_⟩, h.1.1.2⟩
  · rintro rfl; exact absurd hw (by decide)
  · rintro rfl; exact absurd hw (by decide)

theorem plain_value {c : Nat} (h : plain c = true) : valueChar c = true := by
  have hw := plain_white h
  unfold plain at h
  unfold valueChar
  simp only [Bool.and_eq_true, Bool.not_eq_true', bne_iff_ne] at h ⊢
  refine ⟨⟨⟨?_, ?_⟩, h.1.2⟩, h.2⟩
  · rintro rfl; exact absurd hw (by decide)
  · rintro rfl; exact absurd hw (by decide)

/-- Blanks, then something else. -/
theorem blanks_stop {p : Nat → Bool} {w r : Text} (hw : ∀ c ∈ w, c = 32 ∨ c = 9) (h1 : p 32 = false) (h2 : p 9 = false) (hr : Stops p r) :
    Stops p (w ++ r) := by
  intro c hc
  cases w with
  | nil => exact hr c hc
  | cons d w =>
    simp only [List.cons_append, List.head?_cons, Option.some.injEq] at hc
    subst hc
    rcases hw d (by simp) with e | e
    · rw [e]; exact h1
    · rw [e]; exact h2

theorem matchItem_run {p : Param} (h : p.Fine) (r : Text) (hr : r = [] ∨ ∃ r', r = 44 :: r') :
    matchItem (p.text ++ r) = some ((p.key, p.value), r.tail) := by
  have stop : ∀ u v : Text, u ≠ [] → (∀ c ∈ u, plain c = true) → Stops white (u ++ v) := by
    intro u v hu hw c hc
    obtain ⟨d, u, rfl⟩ := List.exists_cons_of_ne_nil hu
    simp only [List.cons_append, List.head?_cons, Option.some.injEq] at hc
    subst hc
    exact plain_white (hw d (by simp))
  have blank : ∀ w : Text, (∀ c ∈ w, c = 32 ∨ c = 9) → ∀ c ∈ w, white c = true := by
    intro w hw c hc
    rcases hw c hc with rfl | rfl <;> decide
  have stopR : ∀ f : Nat → Bool, f 44 = false → Stops f r := by
    intro f hf c hc
    rcases hr with rfl | ⟨r', rfl⟩
    · exact absurd hc nofun
    · simp only [List.head?_cons, Option.some.injEq] at hc
      subst hc; exact hf
  unfold Param.text matchItem
  simp only [List.append_assoc, List.cons_append]
  refine greedy_run h.w1 (stop p.key _ h.key.1 h.key.2) ?_
  refine plus_run (fun c hc => plain_key (h.key.2 c hc)) h.key.1 (blanks_stop h.w2 (by decide) (by decide) ?_) ?_
  · intro c hc
    simp only [List.head?_cons, Option.some.injEq] at hc
    subst hc; decide
  · refine greedy_run (blank p.w2 h.w2) ?_ ?_
    · intro c hc
      simp only [List.head?_cons, Option.some.injEq] at hc
      subst hc; decide
    · simp only [equals]
      rw [if_pos True.intro]
      refine greedy_run h.w3 (stop p.value _ h.value.1 h.value.2) ?_
      refine plus_run (fun c hc => plain_value (h.value.2 c hc)) h.value.1 (blanks_stop h.w4 (by decide) (by decide) (stopR _ (by decide))) ?_
      refine greedy_run (blank p.w4 h.w4) (stopR _ (by decide)) ?_
      unfold comma
      rcases hr with rfl | ⟨r', rfl⟩
      · rfl
      · rfl

theorem items_join : ∀ (l : List Param) (n : Nat), (∀ p ∈ l, p.Fine) → l.length < n → items n (join l) = l.map (fun p => (p.key, p.value)) := by
  intro l
  have nil : ∀ n, items n [] = [] := by
    intro n
    cases n with
    | zero => rfl
    | succ n =>
      have : matchItem [] = none := by decide +kernel
      rw [items, this]
      rfl
  induction l with
  | nil => intro n _ _; exact nil n
  | cons p l ih =>
    intro n hl hn
    obtain ⟨n, rfl⟩ : ∃ m, n = m + 1 := ⟨n - 1, by omega⟩
    have hp := hl p (by simp)
    cases l with
    | nil =>
      have := matchItem_run hp [] (.inl rfl)
      rw [List.append_nil] at this
      show items (n + 1) p.text = _
      rw [items, this]
      simp only [List.tail_nil, nil]
      rfl
    | cons q l =>
      show items (n + 1) (p.text ++ 44 :: join (q :: l)) = _
      rw [items, matchItem_run hp _ (.inr ⟨_, rfl⟩)]
      simp only [List.tail_cons]
      rw [ih n (fun x hx => hl x (by simp only [List.mem_cons] at hx ⊢; exact .inr hx)) (by simp only [List.length_cons] at hn ⊢; omega)]
      rfl

theorem length_join : ∀ l : List Param, (∀ p ∈ l, p.Fine) → l.length ≤ (join l).length := by
  intro l
  induction l with
  | nil => intro _; exact Nat.le_refl _
  | cons p l ih =>
    intro hl
    have hp : 1 ≤ p.text.length := by
      unfold Param.text
      simp only [List.length_append, List.length_cons]
      omega
    cases l with
    | nil => exact hp
    | cons q l =>
      have := ih (fun x hx => hl x (by simp only [List.mem_cons] at hx ⊢; exact .inr hx))
      show _ ≤ (p.text ++ 44 :: join (q :: l)).length
      simp only [List.length_append, List.length_cons] at this ⊢
      omega

/-- The last of the values which can be read, else the default. -/
def lastOf {α : Type} (read : Text → Option α) (key : Text) (l : List Param) (default : α) : α :=
  (l.filterMap (fun p => if p.key.map fold = key then read p.value else none)).getLast?.getD default

/-- The parameters of a header, whatever white space is around them, are those of the list; the last value of a key
which can be read counts, and other parameters do not. -/
theorem C212_parameters_partial (l : List Param) (hl : ∀ p ∈ l, p.Fine) :
    allItems (join l) = l.map (fun p => (p.key, p.value)) ∧
    Info.fromHeader (some (join l)) =
      ⟨lastOf readFloat [116, 105, 109, 101, 111, 117, 116] l 15, lastOf readInt [109, 97, 120] l 0⟩ := by
  have e : allItems (join l) = l.map (fun p => (p.key, p.value)) := items_join l _ hl (by have := length_join l hl; omega)
  refine ⟨e, ?_⟩
  show (allItems (join l)).foldl Info.take Info.default = _
  rw [e]
  have last_cons : ∀ {α : Type} (o : Option α) (m : List α) (d : α), ((o.toList ++ m).getLast?).getD d = m.getLast?.getD (o.getD d) := by
    intro α o m d
    cases o with
    | none => rfl
    | some x =>
      cases m with
      | nil => rfl
      | cons y m => simp [List.getLast?_cons]
  have cons : ∀ {α : Type} (read : Text → Option α) (key : Text) (p : Param) (m : List Param) (d : α),
      lastOf read key (p :: m) d = lastOf read key m ((if p.key.map fold = key then read p.value else none).getD d) := by
    intro α read key p m d
    unfold lastOf
    rw [← last_cons]
    congr 2
    simp only [List.filterMap_cons]
    split <;> next hx => rw [hx]; rfl
  have key : ∀ (l : List Param) (i : Info), (l.map (fun p => (p.key, p.value))).foldl Info.take i =
      ⟨lastOf readFloat [116, 105, 109, 101, 111, 117, 116] l i.timeout, lastOf readInt [109, 97, 120] l i.max⟩ := by
    intro l
    induction l with
    | nil => intro i; rfl
    | cons p l ih =>
      intro i
      simp only [List.map_cons, List.foldl_cons]
      rw [ih, cons, cons]
      unfold Info.take timeoutKey maxKey
      simp only
      by_cases h1 : p.key.map fold = [116, 105, 109, 101, 111, 117, 116]
      · rw [if_pos h1, if_pos h1, if_neg (by rw [h1]; decide)]
        rfl
      · rw [if_neg h1, if_neg h1]
        by_cases h2 : p.key.map fold = [109, 97, 120]
        · rw [if_pos h2, if_pos h2]
          rfl
        · rw [if_neg h2, if_neg h2]
          rfl
  exact key l _

/-- A parameter without a value hides the one behind it, if there is no blank between them. -/
theorem C212_flag_violated : Info.fromHeader (some ("flag,timeout=5".toList.map Char.toNat)) = ⟨15, 0⟩ ∧
    Info.fromHeader (some ("flag, timeout=5".toList.map Char.toNat)) = ⟨5, 0⟩ := by decide +kernel

/-! ### C211: writing and reading -/

theorem plain_digit {c : Nat} (h : digit c = true) : plain c = true := by
  have : ∀ c : Fin 58, digit c = true → plain c = true := by decide
  have hc : c < 58 := by simp only [digit, Bool.and_eq_true, decide_eq_true_eq] at h; omega
  exact this ⟨c, hc⟩ h

theorem plain_showInt (n : Int) : showInt n ≠ [] ∧ ∀ c ∈ showInt n, plain c = true := by
  unfold showInt
  split
  · refine ⟨nofun, fun c hc => ?_⟩
    rcases List.mem_cons.1 hc with rfl | hc
    · decide
    · exact plain_digit (digit_showNat _ c hc)
  · exact ⟨showNat_ne _, fun c hc => plain_digit (digit_showNat _ c hc)⟩

def timeoutParam (n : Int) : Param := ⟨[], timeoutKey, [], [], showInt n, []⟩
def maxParam (n : Int) : Param := ⟨[], maxKey, [], [], showInt n, []⟩

theorem timeoutParam_fine (n : Int) : (timeoutParam n).Fine := ⟨(by decide : timeoutKey ≠ [] ∧ ∀ c ∈ timeoutKey, plain c = true), plain_showInt n, nofun, nofun, nofun, nofun⟩
theorem maxParam_fine (n : Int) : (maxParam n).Fine := ⟨(by decide : maxKey ≠ [] ∧ ∀ c ∈ maxKey, plain c = true), plain_showInt n, nofun, nofun, nofun, nofun⟩

/-- What is read is what was written, with the timeout rounded. -/
theorem reread (i : Info) : Info.fromHeader i.toHeader = ⟨if i.timeout = 15 then 15 else (nearest i.timeout : Rat), i.max⟩ := by
  have t1 : ∀ n, (timeoutParam n).text = timeoutKey ++ 61 :: showInt n := by
    intro n; simp [timeoutParam, Param.text]
  have t2 : ∀ n, (maxParam n).text = maxKey ++ 61 :: showInt n := by
    intro n; simp [maxParam, Param.text]
  have f1 : timeoutKey.map fold = [116, 105, 109, 101, 111, 117, 116] := by decide
  have f2 : maxKey.map fold = [109, 97, 120] := by decide
  unfold Info.toHeader
  simp only [format0]
  by_cases h1 : i.timeout = 15
  · by_cases h2 : i.max = 0
    · rw [if_pos h1, if_pos h2, if_pos h1, h2]
      rfl
    · rw [if_pos h1, if_neg h2, if_pos h1]
      have := (C212_parameters_partial [maxParam i.max] (by simpa using maxParam_fine _)).2
      rw [show join [maxParam i.max] = maxKey ++ 61 :: showInt i.max from t2 _] at this
      simp only [joinParts]
      rw [this]
      simp [lastOf, maxParam, f2, readInt_showInt]
  · by_cases h2 : i.max = 0
    · rw [if_neg h1, if_pos h2, if_neg h1, h2]
      have := (C212_parameters_partial [timeoutParam (nearest i.timeout)] (by simpa using timeoutParam_fine _)).2
      rw [show join [timeoutParam (nearest i.timeout)] = timeoutKey ++ 61 :: showInt (nearest i.timeout) from t1 _] at this
      simp only [joinParts]
      rw [this]
      simp [lastOf, timeoutParam, f1, readFloat_showInt]
    · rw [if_neg h1, if_neg h2, if_neg h1]
      have := (C212_parameters_partial [timeoutParam (nearest i.timeout), maxParam i.max] (by
        intro p hp
        simp only [List.mem_cons, List.not_mem_nil, or_false] at hp
        rcases hp with rfl | rfl
        · exact timeoutParam_fine _
        · exact maxParam_fine _)).2
      rw [show join [timeoutParam (nearest i.timeout), maxParam i.max] =
        timeoutKey ++ 61 :: showInt (nearest i.timeout) ++ 44 :: (maxKey ++ 61 :: showInt i.max) from by rw [← t1, ← t2]; rfl] at this
      simp only [joinParts]
      rw [this]
      simp [lastOf, timeoutParam, maxParam, f1, f2, readFloat_showInt, readInt_showInt]

/-- Information with whole seconds is read from the header it is written to; there is none for the defaults. -/
theorem C211_round_trip_partial (n max : Int) :
    Info.fromHeader (Info.mk n max).toHeader = ⟨n, max⟩ ∧ ((Info.mk n max).toHeader = none ↔ n = 15 ∧ max = 0) := by
  refine ⟨?_, ?_⟩
  · rw [reread]
    simp only
    split
    · next h => rw [h]
    · rw [nearest_int]
  · unfold Info.toHeader
    simp only
    have e : ((n : Rat) = 15) ↔ n = 15 := by
      rw [show (15 : Rat) = ((15 : Int) : Rat) from rfl, Rat.intCast_inj]
    by_cases h1 : n = 15
    · by_cases h2 : max = 0
      · simp [e, h1, h2, joinParts]
      · simp [e, h1, h2, joinParts]
    · by_cases h2 : max = 0
      · simp [e, h1, h2, joinParts]
      · simp [e, h1, h2, joinParts]

/-- A timeout which is not whole is never read back. -/
theorem C211_fraction_violated (i : Info) (h : ∀ n : Int, i.timeout ≠ n) : (Info.fromHeader i.toHeader).timeout ≠ i.timeout := by
  rw [reread]
  simp only
  rw [if_neg (show i.timeout ≠ 15 from h 15)]
  exact fun e => h _ e.symm

/-! ### Examples -/

-- C211
example : (Info.mk 30 (-7)).toHeader = some ("timeout=30,max=-7".toList.map Char.toNat) := by decide +kernel
example : (Info.mk (5 / 2) 0).toHeader = some ("timeout=2".toList.map Char.toNat) := by decide +kernel
example : Info.fromHeader (Info.mk (2 / 5) 0).toHeader = ⟨0, 0⟩ := by decide +kernel

-- C212
example : Info.fromHeader (some (" Timeout = 5 , x=1, max=a, timeout=2.5,MAX=100".toList.map Char.toNat)) = ⟨5 / 2, 100⟩ := by decide +kernel
example : Info.fromHeader (some ("timeout=5, max=1000".toList.map Char.toNat)) = ⟨5, 1000⟩ := by decide +kernel

end Verif.Credentials.KeepAlive
