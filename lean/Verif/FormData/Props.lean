import Verif.FormData.Model
import Mathlib.Data.List.Forall2

/-!
# Form data

C220: the fields are read back from an urlencoded body. C221: a form is multipart if a field needs it. C222: the fields are
the parts of a multipart body. C223: the content type of a part. C224: a part has one content type.
-/
namespace Verif.FormData

/-! ### C220 -/

/-- Splitting at a byte. -/
def splitBy (sep : Nat) : Bytes → List Bytes
  | [] => [[]]
  | c :: l => if c = sep then [] :: splitBy sep l else
    match splitBy sep l with
    | [] => [[c]]
    | p :: ps => (c :: p) :: ps

/-- The value of a digit. -/
def digit (c : Nat) : Nat := if c < 65 then c - 48 else c - 55

/-- Reading a quoted string: plus is a space, percent and two digits are a byte. -/
def unquotePlus : Bytes → Bytes
  | 37 :: a :: b :: l => (digit a * 16 + digit b) :: unquotePlus l
  | c :: l => (if c = 43 then 32 else c) :: unquotePlus l
  | [] => []

/-- A name and a value: before and after the first equality sign. -/
def readPair (p : Bytes) : Bytes × Bytes := (unquotePlus (p.takeWhile (· ≠ 61)), unquotePlus ((p.dropWhile (· ≠ 61)).drop 1))

/-- Reading `application/x-www-form-urlencoded`. -/
def readForm (b : Bytes) : List (Bytes × Bytes) := if b = [] then [] else (splitBy 38 b).map readPair

theorem digit_hex : ∀ d, d < 16 → digit (hex d) = d := by decide

theorem unquotePlus_byte (space : Bool) (b : Nat) (hb : b < 256) (l : Bytes) :
    unquotePlus (quoteByte space b ++ l) = b :: unquotePlus l := by
  have plain : ∀ c, c ≠ 37 → unquotePlus (c :: l) = (if c = 43 then 32 else c) :: unquotePlus l := by
    intro c hc
    rw [unquotePlus.eq_def]
    split
    · rename_i h; cases h; exact absurd rfl hc
    · rename_i h; cases h; rfl
    · rename_i h; cases h
  unfold quoteByte
  split
  · rename_i hu
    have h1 : b ≠ 37 := fun e => by subst e; exact absurd hu (by decide)
    have h2 : b ≠ 43 := fun e => by subst e; exact absurd hu (by decide)
    rw [List.singleton_append, plain b h1, if_neg h2]
  · split
    · rename_i hs
      rw [List.singleton_append, plain 43 (by decide), if_pos rfl, hs.1]
    · show (digit (hex (b / 16)) * 16 + digit (hex (b % 16))) :: unquotePlus l = _
      rw [digit_hex _ (by omega), digit_hex _ (by omega)]
      congr 1; omega

theorem unquotePlus_quote (space : Bool) (bs : Bytes) (hb : ∀ b ∈ bs, b < 256) :
    unquotePlus (bs.flatMap (quoteByte space)) = bs := by
  induction bs with
  | nil => rfl
  | cons b bs ih =>
    rw [List.flatMap_cons, unquotePlus_byte space b (hb b List.mem_cons_self),
      ih (fun x hx => hb x (List.mem_cons_of_mem _ hx))]

theorem hex_range : ∀ d, d < 16 → hex d ≠ 38 ∧ hex d ≠ 61 := by decide

theorem quoteByte_free (space : Bool) (b : Nat) (hb : b < 256) : ∀ c ∈ quoteByte space b, c ≠ 38 ∧ c ≠ 61 := by
  intro c hc
  unfold quoteByte at hc
  split at hc
  · rename_i hu
    rw [List.mem_singleton.1 hc]
    exact ⟨fun e => by subst e; exact absurd hu (by decide), fun e => by subst e; exact absurd hu (by decide)⟩
  · split at hc
    · rw [List.mem_singleton.1 hc]; decide
    · simp only [List.mem_cons, List.not_mem_nil, or_false] at hc
      rcases hc with rfl | rfl | rfl
      · decide
      · exact hex_range _ (by omega)
      · exact hex_range _ (by omega)

theorem splitBy_free (sep : Nat) (l : Bytes) (h : ∀ c ∈ l, c ≠ sep) : splitBy sep l = [l] := by
  induction l with
  | nil => rfl
  | cons c l ih =>
    rw [splitBy, if_neg (h c List.mem_cons_self), ih (fun x hx => h x (List.mem_cons_of_mem _ hx))]

theorem splitBy_append (sep : Nat) (l r : Bytes) (h : ∀ c ∈ l, c ≠ sep) :
    splitBy sep (l ++ sep :: r) = l :: splitBy sep r := by
  induction l with
  | nil => rw [List.nil_append, splitBy, if_pos rfl]
  | cons c l ih =>
    rw [List.cons_append, splitBy, if_neg (h c List.mem_cons_self), ih (fun x hx => h x (List.mem_cons_of_mem _ hx))]

/-- The encoding makes bytes. -/
def Encoding.Sane (e : Encoding) : Prop := ∀ t b, e.encode t = some b → ∀ x ∈ b, x < 256

/-- What is known of a pair. -/
theorem pair_read {e : Encoding} (he : e.Sane) {k v : Text} {p : Bytes} (h : pair e k v = some p) :
    ∃ a b, e.encode k = some a ∧ e.encode v = some b ∧ readPair p = (a, b) ∧ (∀ c ∈ p, c ≠ 38) ∧ p ≠ [] := by
  unfold pair quotePlus at h
  rcases hk : e.encode k with _ | a
  · rw [hk] at h; cases h
  · rcases hv : e.encode v with _ | b
    · rw [hk, hv] at h; cases h
    · rw [hk, hv] at h
      simp only [Option.map_some, Option.bind_some, Option.some.injEq] at h
      have ha := he k a hk
      have hb := he v b hv
      have fa : ∀ c ∈ a.flatMap (quoteByte (32 ∈ k)), c ≠ 38 ∧ c ≠ 61 := by
        intro c hc
        obtain ⟨x, hx, hc⟩ := List.mem_flatMap.1 hc
        exact quoteByte_free _ x (ha x hx) c hc
      have fb : ∀ c ∈ b.flatMap (quoteByte (32 ∈ v)), c ≠ 38 ∧ c ≠ 61 := by
        intro c hc
        obtain ⟨x, hx, hc⟩ := List.mem_flatMap.1 hc
        exact quoteByte_free _ x (hb x hx) c hc
      refine ⟨a, b, rfl, rfl, ?_, ?_, ?_⟩
      · have tw : p.takeWhile (· ≠ 61) = a.flatMap (quoteByte (32 ∈ k)) := by
          rw [← h, List.takeWhile_append_of_pos (by intro c hc; simpa using (fa c hc).2)]
          simp
        have dw : (p.dropWhile (· ≠ 61)).drop 1 = b.flatMap (quoteByte (32 ∈ v)) := by
          rw [← h, List.dropWhile_append_of_pos (by intro c hc; simpa using (fa c hc).2)]
          simp
        rw [readPair, tw, dw, unquotePlus_quote _ _ ha, unquotePlus_quote _ _ hb]
      · intro c hc
        rw [← h] at hc
        rcases List.mem_append.1 hc with hc | hc
        · exact (fa c hc).1
        · rcases List.mem_cons.1 hc with hc | hc
          · rw [hc]; decide
          · exact (fb c hc).1
      · rw [← h]; simp

theorem join_ne_nil : ∀ (l : List Bytes), l ≠ [] → (∀ p ∈ l, p ≠ []) → joinPairs l ≠ []
  | [], h, _ => absurd rfl h
  | [p], _, h => h p List.mem_cons_self
  | p :: q :: l, _, _ => by simp [joinPairs]

theorem split_join : ∀ (l : List Bytes), l ≠ [] → (∀ p ∈ l, ∀ c ∈ p, c ≠ 38) → splitBy 38 (joinPairs l) = l
  | [], h, _ => absurd rfl h
  | [p], _, h => splitBy_free 38 p (h p List.mem_cons_self)
  | p :: q :: l, _, h => by
    rw [joinPairs, splitBy_append 38 p _ (h p List.mem_cons_self),
      split_join (q :: l) (by simp) (fun x hx => h x (List.mem_cons_of_mem _ hx))]

theorem mapM_read {e : Encoding} (he : e.Sane) : ∀ (ps : List (Text × Text)) (l : List Bytes),
    (ps.mapM fun p => pair e p.1 p.2) = some l →
    (∀ p ∈ l, (∀ c ∈ p, c ≠ 38) ∧ p ≠ []) ∧ l.length = ps.length ∧
      (l.map readPair).map (fun x => (some x.1, some x.2)) = ps.map fun p => (e.encode p.1, e.encode p.2)
  | [], l, h => by simp at h; subst h; simp
  | q :: ps, l, h => by
    rw [List.mapM_cons] at h
    rcases hp : pair e q.1 q.2 with _ | b
    · rw [hp] at h; cases h
    · rcases hr : ps.mapM (fun p => pair e p.1 p.2) with _ | r
      · rw [hp, hr] at h; cases h
      · rw [hp, hr] at h
        cases h
        obtain ⟨i1, i2, i3⟩ := mapM_read he ps r hr
        obtain ⟨x, y, hx, hy, hxy, f, n⟩ := pair_read he hp
        refine ⟨?_, by simp [i2], ?_⟩
        · intro p hp
          rcases List.mem_cons.1 hp with rfl | hp
          · exact ⟨f, n⟩
          · exact i1 p hp
        · simp only [List.map_cons, hxy, hx, hy, i3]

/-- C220. If the body of a form is urlencoded, then reading it gives, in order, every name and value, in the encoding of the
form; a sequence gives one pair for each of its items. -/
theorem C220_read (e : Encoding) (he : e.Sane) (s : Form) (b : Bytes) (h : s.urlencoded e = some b) :
    (readForm b).map (fun x => (some x.1, some x.2)) =
      s.fields.flatMap fun f => (match f.value with | .str t => [t] | .object t => [t] | .seq ts => ts | _ => []).map
        fun v => (e.encode f.name, e.encode v) := by
  have hs : (s.fields.flatMap fun f => (match f.value with | .str t => [t] | .object t => [t] | .seq ts => ts | _ => []).map
        fun v => (e.encode f.name, e.encode v)) = s.pairs.map fun p => (e.encode p.1, e.encode p.2) := by
    rw [Form.pairs, List.map_flatMap]
    congr 1
    funext f
    rw [List.map_map]
    cases f.value <;> rfl
  rw [hs]
  unfold Form.urlencoded at h
  rcases hl : s.pairs.mapM (fun p => pair e p.1 p.2) with _ | l
  · rw [hl] at h; cases h
  · rw [hl] at h
    cases h
    obtain ⟨i1, i2, i3⟩ := mapM_read he s.pairs l hl
    rw [← i3]
    by_cases hn : l = []
    · subst hn; rfl
    · have hj : joinPairs l ≠ [] := join_ne_nil l hn (fun p hp => (i1 p hp).2)
      rw [readForm, if_neg hj, split_join l hn (fun p hp => (i1 p hp).1)]

/-- C220. The body is made whenever the encoding has all the characters. -/
theorem C220_made (e : Encoding) (s : Form)
    (h : ∀ p ∈ s.pairs, (e.encode p.1).isSome ∧ (e.encode p.2).isSome) : (s.urlencoded e).isSome := by
  unfold Form.urlencoded
  rw [Option.isSome_map]
  generalize s.pairs = ps at h
  induction ps with
  | nil => rfl
  | cons p ps ih =>
    obtain ⟨h1, h2⟩ := h p List.mem_cons_self
    obtain ⟨a, ha⟩ := Option.isSome_iff_exists.1 h1
    obtain ⟨b, hb⟩ := Option.isSome_iff_exists.1 h2
    obtain ⟨r, hr⟩ := Option.isSome_iff_exists.1 (ih (fun x hx => h x (List.mem_cons_of_mem _ hx)))
    rw [List.mapM_cons, hr]
    simp [pair, quotePlus, ha, hb]

/-- ASCII, for the examples. -/
def ascii : Encoding := ⟨[97], fun t => if t.all (· < 128) then some t else none⟩

/-- `a b`, `=&+`, and a list of two. -/
example : (Form.urlencoded ascii ⟨[⟨[97, 32, 98], none, none, none, .str [61, 38, 43]⟩, ⟨[99], none, none, none, .seq [[49], []]⟩], false⟩) =
    some [97, 43, 98, 61, 37, 51, 68, 37, 50, 54, 37, 50, 66, 38, 99, 61, 49, 38, 99, 61] := by decide +kernel

example : readForm [97, 43, 98, 61, 37, 51, 68, 37, 50, 54, 37, 50, 66, 38, 99, 61, 49, 38, 99, 61] =
    [([97, 32, 98], [61, 38, 43]), ([99], [49]), ([99], [])] := by decide +kernel

/-! ### C221 -/

/-- A call of `add_field` or of `add_json`. -/
inductive Add where
  | field (name : Text) (value : Value) (contentType fileName transfer : Arg)
  | json (name dumped : Text)

/-- A call, and whether it returned. -/
def Form.add (s : Form) : Add → Form × Bool
  | .field n v c f t => s.addField n v c f t
  | .json n d => (s.addJson n d, true)

def Form.adds (s : Form) : List Add → Form
  | [] => s
  | a :: l => (s.add a).1.adds l

/-- Whether the calls all returned. -/
def Form.fine (s : Form) : List Add → Prop
  | [] => True
  | a :: l => (s.add a).2 = true ∧ (s.add a).1.fine l

/-- What cannot be sent urlencoded: files, bytes, json, and what has a content type, a file name or a transfer encoding. -/
def Add.needs : Add → Prop
  | .json _ _ => True
  | .field _ v c f t => (∃ n b, v = .binary n b) ∨ (∃ n b, v = .textual n b) ∨ (∃ b, v = .bytes b) ∨ c ≠ .none ∨ f ≠ .none ∨
      t ≠ .none

/-- The calls which raise. -/
def Add.raises : Add → Prop
  | .json _ _ => False
  | .field _ v c f t => c = .bad ∨ f = .bad ∨ t = .bad ∨
      (f = .none ∧ ((∃ n b, v = .binary (.number n) b) ∨ ∃ n b, v = .textual (.number n) b))

/-- What a call does. -/
theorem addField_cases (s : Form) (n : Text) (v : Value) (c f t : Arg) :
    (s.addField n v c f t).2 = false ∧ (s.addField n v c f t).1.fields = s.fields ∨
    (s.addField n v c f t).2 = true ∧
      chosen n v f t ≠ .bad ∧ c ≠ .bad ∧ t ≠ .bad ∧
      (s.addField n v c f t).1 = ⟨s.fields ++ [⟨n, (chosen n v f t).toOption, c.toOption, t.toOption, v⟩],
        s.multipart || v.isFile || (chosen n v f t).isText || c.isText || t.isText⟩ := by
  unfold Form.addField
  dsimp only
  split
  · exact .inl ⟨rfl, rfl⟩
  · split
    · exact .inl ⟨rfl, rfl⟩
    · split
      · exact .inl ⟨rfl, rfl⟩
      · rename_i h1 h2 h3
        exact .inr ⟨rfl, h1, h2, h3, rfl⟩

/-- Which calls raise. -/
theorem C221_raises (s : Form) (a : Add) : (s.add a).2 = false ↔ a.raises := by
  cases a with
  | json n d => simp [Form.add, Add.raises]
  | field n v c f t =>
    simp only [Form.add, Add.raises, Form.addField]
    cases f <;> cases c <;> cases t <;> cases v <;>
      simp [chosen, Value.isFile, Value.isBytes, Value.fileName] <;>
      (rename_i nm _ ; cases nm <;> simp)

theorem Form.add_flag (s : Form) (a : Add) (h : (s.add a).2 = true) :
    (s.add a).1.multipart = true ↔ s.multipart = true ∨ a.needs := by
  cases a with
  | json n d => simp [Form.add, Form.addJson, Add.needs]
  | field n v c f t =>
    have h' : (s.addField n v c f t).2 = true := h
    show (s.addField n v c f t).1.multipart = true ↔ _
    rcases addField_cases s n v c f t with ⟨hf, -⟩ | ⟨-, h1, h2, h3, e⟩
    · rw [hf] at h'; cases h'
    · rw [e]
      simp only [Bool.or_eq_true, Add.needs]
      cases f <;> cases c <;> cases t <;> cases v <;>
        simp [chosen, Value.isFile, Value.isBytes, Value.fileName, Arg.isText] at h1 h2 h3 ⊢

/-- C221, as long as no call raised: a form is multipart exactly if one of its fields needs it. -/
theorem C221_flag_partial (l : List Add) (h : Form.new.fine l) :
    (Form.new.adds l).multipart = true ↔ ∃ a ∈ l, a.needs := by
  suffices key : ∀ (l : List Add) (s : Form), s.fine l →
      ((s.adds l).multipart = true ↔ s.multipart = true ∨ ∃ a ∈ l, a.needs) by
    simpa [Form.new] using key l Form.new h
  intro l
  induction l with
  | nil => intro s _; simp [Form.adds]
  | cons a l ih =>
    intro s hs
    rw [Form.adds, ih _ hs.2, Form.add_flag s a hs.1]
    simp [or_assoc]

/-- C221 is violated by calls which raise: a file whose file name or content type has a wrong type is not added, but the form
is multipart from then on. -/
theorem C221_raised_violated (s : Form) (n : Text) (v : Value) (hv : v.isFile) (c f t : Arg)
    (h : (Add.field n v c f t).raises) :
    (s.add (.field n v c f t)).1.fields = s.fields ∧ (s.add (.field n v c f t)).1.multipart = true := by
  have h' : (s.addField n v c f t).2 = false := (C221_raises s _).2 h
  refine ⟨?_, ?_⟩
  · rcases addField_cases s n v c f t with ⟨-, h2⟩ | ⟨h2, -⟩
    · exact h2
    · rw [h2] at h'; cases h'
  · show (s.addField n v c f t).1.multipart = true
    unfold Form.addField
    dsimp only
    rw [hv]
    split
    · simp
    · split
      · simp
      · split <;> simp

/-- The form is empty, and is sent as multipart. -/
example : Form.new.add (.field [97] (.binary .missing [1]) .none .bad .none) = (⟨[], true⟩, false) := by decide

example : (Form.new.adds [.field [97] (.str [98]) .none .none .none, .field [97] (.bytes [98]) .none .none .none]) =
    ⟨[⟨[97], none, none, none, .str [98]⟩, ⟨[97], some [97], none, none, .bytes [98]⟩], true⟩ := by decide

/-! ### C222 -/

/-- What a value is as the content of a part. -/
inductive Carries (e : Encoding) : Value → Bytes → Prop where
  | str {t b} : e.encode t = some b → Carries e (.str t) b
  | bytes (b) : Carries e (.bytes b) b
  | binary (n b) : Carries e (.binary n b) b
  | textual {n t b} : e.encode t = some b → Carries e (.textual n t) b

/-- Files which were not opened by their descriptor, or have a content type. -/
def Field.Named (f : Field) : Prop :=
  f.contentType ≠ none ∨ ∀ n, (∀ b, f.value ≠ .binary (.number n) b) ∧ ∀ t, f.value ≠ .textual (.number n) t

theorem payload_content {e : Encoding} {guess : Text → Option Text} {f : Field} {b : Bytes} (hc : Carries e f.value b)
    (hn : f.Named) : ∃ c, payload e guess f.contentType f.value = some (c, b) := by
  obtain ⟨name, fileName, contentType, transfer, value⟩ := f
  cases hc with
  | str h => exact ⟨_, by simp only [payload, h]; rfl⟩
  | bytes b => exact ⟨_, rfl⟩
  | binary n b =>
    cases contentType with
    | some c => exact ⟨c, rfl⟩
    | none =>
      cases n with
      | missing => exact ⟨_, rfl⟩
      | text t => exact ⟨_, rfl⟩
      | number k => exact absurd rfl ((hn.resolve_left (fun h => h rfl) k).1 b)
  | @textual n t b h =>
    cases contentType with
    | some c => exact ⟨c, by simp only [payload, h]; rfl⟩
    | none =>
      cases n with
      | missing => exact ⟨plain ++ e.name, by simp [payload, h, FileName.isNumber]⟩
      | text t => exact ⟨plain ++ e.name, by simp [payload, h, FileName.isNumber]⟩
      | number k => exact absurd rfl ((hn.resolve_left (fun h => h rfl) k).2 t)

/-- C222, for strings, bytes and files: the body of a multipart form has one part for each field, in order, with its name, its
file name, its transfer encoding and its content. -/
theorem C222_parts_partial (e : Encoding) (guess : Text → Option Text) (s : Form) (hm : s.multipart = true)
    (contents : List Bytes) (hc : List.Forall₂ (fun f b => Carries e f.value b) s.fields contents)
    (hn : ∀ f ∈ s.fields, f.Named) :
    ∃ ps, s.generate e guess = some (.parts ps) ∧
      List.Forall₂ (fun (f : Field) (p : Part) => p.name = f.name ∧ p.fileName = f.fileName ∧ p.transfer = f.transfer) s.fields ps ∧
      ps.map Part.content = contents := by
  suffices key : ∀ (fs : List Field) (bs : List Bytes), List.Forall₂ (fun f b => Carries e f.value b) fs bs →
      (∀ f ∈ fs, f.Named) → ∃ ps, fs.mapM (Field.part e guess) = some ps ∧
      List.Forall₂ (fun (f : Field) (p : Part) => p.name = f.name ∧ p.fileName = f.fileName ∧ p.transfer = f.transfer) fs ps ∧
      ps.map Part.content = bs by
    obtain ⟨ps, h1, h2, h3⟩ := key s.fields contents hc hn
    refine ⟨ps, ?_, h2, h3⟩
    rw [Form.generate, if_pos hm, Form.parts, h1]; rfl
  intro fs bs h
  induction h with
  | nil => exact fun _ => ⟨[], rfl, .nil, rfl⟩
  | @cons f b fs bs hfb _ ih =>
    intro hn
    obtain ⟨ps, h1, h2, h3⟩ := ih (fun x hx => hn x (List.mem_cons_of_mem _ hx))
    obtain ⟨c, hp⟩ := payload_content (guess := guess) hfb (hn f List.mem_cons_self)
    refine ⟨⟨extended [c] f.contentType, f.name, f.fileName, f.transfer, b⟩ :: ps, ?_, .cons ⟨rfl, rfl, rfl⟩ h2, by simp [h3]⟩
    rw [List.mapM_cons, h1, Field.part, hp]; rfl

/-- C222 is violated: a number or a list can be sent, and a file can, but a form with both cannot be made. -/
theorem C222_mixed_violated (e : Encoding) (guess : Text → Option Text) (n m x b : Text) (hn : (e.encode n).isSome)
    (hx : (e.encode x).isSome) (v : Value) (hv : v = .object x ∨ v = .seq [x]) :
    ((Form.new.adds [.field n v .none .none .none]).generate e guess).isSome ∧
      ((Form.new.adds [.field m (.binary .missing b) .none .none .none]).generate e guess).isSome ∧
      (Form.new.adds [.field n v .none .none .none, .field m (.binary .missing b) .none .none .none]).generate e guess = none := by
  obtain ⟨a, ha⟩ := Option.isSome_iff_exists.1 hn
  obtain ⟨c, hc⟩ := Option.isSome_iff_exists.1 hx
  rcases hv with rfl | rfl <;>
    simp [Form.adds, Form.add, Form.addField, Form.new, chosen, Value.isFile, Value.isBytes, Value.fileName, Arg.isText,
      Arg.toOption, Form.generate, Form.urlencoded, Form.pairs, Value.shown, pair, quotePlus, ha, hc, Form.parts, Field.part,
      payload, guessed]

/-- C222 is violated: a file which was opened by its descriptor cannot be sent, although it got a file name. -/
theorem C222_descriptor_violated (e : Encoding) (guess : Text → Option Text) (n t b : Text) (k : Nat) :
    (Form.new.add (.field n (.binary (.number k) b) .none (.text t) .none)).2 = true ∧
      (Form.new.adds [.field n (.binary (.number k) b) .none (.text t) .none]).generate e guess = none := by
  simp [Form.adds, Form.add, Form.addField, Form.new, chosen, Value.isFile, Arg.isText,
      Arg.toOption, Form.generate, Form.parts, Field.part, payload, guessed]

example : (Form.new.adds [.field [97] (.str [98]) .none .none .none, .field [99] (.binary (.text [100]) [101]) (.text [102]) .none .none]).generate
      ascii (fun _ => none) =
    some (.parts [⟨[plain ++ [97]], [97], none, none, [98]⟩, ⟨[[102]], [99], some [100], none, [101]⟩]) := by decide

/-! ### C223 -/

/-- C223, for a field with a content type: it is the only one of its part. -/
theorem C223_given_partial (e : Encoding) (guess : Text → Option Text) (f : Field) (c : Text) (hc : f.contentType = some c)
    (p : Part) (h : f.part e guess = some p) : p.contentTypes = [c] := by
  obtain ⟨name, fileName, contentType, transfer, value⟩ := f
  cases hc
  unfold Field.part at h
  have key : ∀ x, payload e guess (some c) value = some x → x.1 = c := by
    intro x hx
    cases value with
    | str t => simp only [payload, Option.map_eq_some_iff] at hx; obtain ⟨_, -, rfl⟩ := hx; rfl
    | bytes b => cases hx; rfl
    | binary n b => cases hx; rfl
    | textual n t => simp only [payload, Option.map_eq_some_iff] at hx; obtain ⟨_, -, rfl⟩ := hx; rfl
    | seq _ => cases hx
    | object _ => cases hx
  rcases hp : payload e guess (some c) value with _ | x
  · simp only [hp] at h; cases h
  · simp only [hp, Option.map_some, Option.some.injEq] at h
    rw [← h]
    simp [extended, key x hp]

/-- C223, for a string without a content type: it tells the encoding. For a file with a name of its own: what is guessed from
that. -/
theorem C223_default_partial (e : Encoding) (guess : Text → Option Text) (f : Field) (hc : f.contentType = none) (p : Part)
    (h : f.part e guess = some p) :
    (∀ t, f.value = .str t → p.contentTypes = [plain ++ e.name]) ∧
      (∀ t b, f.value = .binary (.text t) b → p.contentTypes = [(guess t).getD octets]) := by
  obtain ⟨name, fileName, contentType, transfer, value⟩ := f
  cases hc
  constructor
  · rintro t rfl
    simp only [Field.part, payload, Option.map_map, Option.map_eq_some_iff] at h
    obtain ⟨b, -, rfl⟩ := h
    rfl
  · rintro t b rfl
    cases h; rfl

/-- C223 is violated: the file name which is given to `add_field` does not count. A file without a name of its own, or with
another one, gets the content type for that, and bytes get none. -/
theorem C223_file_name_violated (e : Encoding) (guess : Text → Option Text) (n t b : Text) (own : FileName) (c : Text)
    (hg : guessed guess own = some c) :
    (Form.new.adds [.field n (.binary own b) .none (.text t) .none]).generate e guess =
        some (.parts [⟨[c], n, some t, none, b⟩]) ∧
      (Form.new.adds [.field n (.bytes b) .none (.text t) .none]).generate e guess =
        some (.parts [⟨[octets], n, some t, none, b⟩]) := by
  constructor <;>
  simp [Form.adds, Form.add, Form.addField, Form.new, chosen, Value.isFile, Arg.isText,
      Arg.toOption, Form.generate, Form.parts, Field.part, payload, hg, extended]

/-- A `BytesIO` which is sent as `a.b`, where the guess for that is known. -/
example : (Form.new.adds [.field [120] (.binary .missing [1]) .none (.text [97, 46, 98]) .none]).generate ascii
      (fun t => if t = [97, 46, 98] then some [105] else none) =
    some (.parts [⟨[octets], [120], some [97, 46, 98], none, [1]⟩]) := by decide

/-! ### C224 -/

/-- C224 is violated: a content type in the headers which are given to `MultipartWriter.append` does not replace the one
which is guessed; the part has both. -/
theorem C224_append_violated (utf8 : Encoding) (guess : Text → Option Text) (given : Text) (v : Value) (x : Text × Bytes)
    (hx : payload utf8 guess none v = some x) (hne : given ≠ x.1) :
    appended guess utf8 (some given) v = some [x.1, given] := by
  simp [appended, hx, extended, hne]

/-- C224, if no other content type is given: there is one. -/
theorem C224_append_partial (utf8 : Encoding) (guess : Text → Option Text) (v : Value) (l : List Text)
    (h : appended guess utf8 none v = some l) : l.length = 1 := by
  unfold appended at h
  rcases hp : payload utf8 guess none v with _ | x
  · rw [hp] at h; cases h
  · rw [hp] at h; cases h; rfl

/-- C224. The parts of a form have one content type. -/
theorem C224_form (e : Encoding) (guess : Text → Option Text) (s : Form) (ps : List Part)
    (h : s.generate e guess = some (.parts ps)) : ∀ p ∈ ps, p.contentTypes.length = 1 := by
  unfold Form.generate at h
  split at h
  · rcases hp : s.parts e guess with _ | qs
    · rw [hp] at h; cases h
    · rw [hp] at h
      cases h
      unfold Form.parts at hp
      have key : ∀ (fs : List Field) (qs : List Part), fs.mapM (Field.part e guess) = some qs →
          ∀ p ∈ qs, ∃ f : Field, f.part e guess = some p := by
        intro fs
        induction fs with
        | nil => intro qs h; cases h; simp
        | cons f fs ih =>
          intro qs h
          rw [List.mapM_cons] at h
          rcases h1 : f.part e guess with _ | p
          · rw [h1] at h; cases h
          · rcases h2 : fs.mapM (Field.part e guess) with _ | r
            · rw [h1, h2] at h; cases h
            · rw [h1, h2] at h
              cases h
              intro q hq
              rcases List.mem_cons.1 hq with rfl | hq
              · exact ⟨f, h1⟩
              · exact ih r h2 q hq
      intro p hq
      obtain ⟨f, hf⟩ := key s.fields _ hp p hq
      rcases hc : f.contentType with _ | c
      · unfold Field.part at hf
        rcases hy : payload e guess f.contentType f.value with _ | y
        · rw [hy] at hf; cases hf
        · rw [hy] at hf
          simp only [Option.map_some, Option.some.injEq] at hf
          rw [← hf, hc]; rfl
      · rw [C223_given_partial e guess f c hc p hf]; rfl
  · rcases hp : s.urlencoded e with _ | b
    · rw [hp] at h; cases h
    · rw [hp] at h; cases h

/-- Bytes with a content type. -/
example : appended (fun _ => none) ascii (some [105]) (.bytes [1]) = some [octets, [105]] := by decide

end Verif.FormData
