import Verif.Url.Model
import Verif.Quoting.Props
import Verif.MultiDict.Props

/-! Properties C40, C41, C42 and C63. -/
namespace Verif.Url

open Verif.Quoting (Text)

/-! ### The specification of C40 -/

/-- One step of the walk from the root: `.` stays, `..` goes back, at the root it stays there. -/
def walkStep (at' : List Text) (part : Text) : List Text :=
  if part = ".".toList then at' else if part = "..".toList then at'.dropLast else at' ++ [part]

/-- Where walking the parts from the root ends. -/
def walk (parts : List Text) : List Text := parts.foldl walkStep []

/-- As paths are written: a `.` at the end is left as an empty part (the slash at the end). -/
def place (parts : List Text) : List Text :=
  if parts.getLast? = some ".".toList ∧ walk parts ≠ [] then walk parts ++ [[]] else walk parts

/-! ### Single dots -/

/-- The loop without indexes; `started` if there is something before. -/
def undot (started : Bool) : List Text → List Text
  | [] => []
  | p :: rest => if p ≠ ['.'] then p :: undot true rest else if started ∧ rest = [] then [[]] else undot started rest

theorem undot_eq (rest : List Text) : ∀ started, undot started rest = rest.filter (· ≠ ['.']) ++
    (if rest.getLast? = some ['.'] ∧ (started = true ∨ rest.filter (· ≠ ['.']) ≠ []) then [[]] else []) := by
  induction rest with
  | nil => intro started; simp [undot]
  | cons p rest ih =>
    intro started
    unfold undot
    by_cases hp : p = ['.']
    · subst hp
      rw [if_neg (by simp), List.filter_cons_of_neg (by simp)]
      by_cases hr : rest = []
      · subst hr
        cases started <;> simp [undot]
      · rw [if_neg (by simp [hr]), ih, List.getLast?_cons]
        cases hl : rest.getLast? with
        | none => exact absurd (List.getLast?_eq_none_iff.1 hl) hr
        | some x => simp
    · rw [if_pos hp, ih, List.filter_cons_of_pos (by simp [hp]), List.getLast?_cons, List.cons_append]
      congr 2
      cases hl : rest.getLast? with
      | none => simp [hp]
      | some x => simp

theorem dropDots_spec : ∀ (rounds : Nat) (pre rest : List Text) (s : Local), s.parts = pre ++ rest → s.len = s.parts.length → rest.length ≤ rounds →
    ∃ d, dropDots rounds pre.length s =
      some { s with parts := pre ++ undot (!pre.isEmpty) rest, len := (pre ++ undot (!pre.isEmpty) rest).length, deleted := d } ∧
      d + (pre ++ undot (!pre.isEmpty) rest).length = s.deleted + s.parts.length := by
  intro rounds
  induction rounds with
  | zero =>
    intro pre rest s hp hl hr
    have : rest = [] := List.length_eq_zero_iff.1 (by omega)
    subst this
    refine ⟨s.deleted, ?_, ?_⟩
    · simp only [dropDots, undot, List.append_nil, Option.some.injEq]
      rw [List.append_nil] at hp
      rw [← hp, ← hl]
    · rw [hp]; simp [undot]
  | succ rounds ih =>
    intro pre rest s hp hl hr
    cases rest with
    | nil =>
      refine ⟨s.deleted, ?_, ?_⟩
      · have : ¬ pre.length < s.len := by rw [hl, hp]; simp
        simp only [dropDots, this, ↓reduceIte, undot, List.append_nil, Option.some.injEq]
        rw [List.append_nil] at hp
        rw [← hp, ← hl]
      · rw [hp]; simp [undot]
    | cons p rest =>
      have hlt : pre.length < s.len := by rw [hl, hp]; simp
      have hget : s.parts[pre.length]? = some p := by rw [hp]; simp
      rw [dropDots, if_pos hlt, hget]
      simp only
      rw [List.length_cons] at hr
      by_cases hpd : p = ['.']
      · rw [if_neg (by simpa using hpd)]
        have hlen : s.len = pre.length + (rest.length + 1) := by rw [hl, hp]; simp
        by_cases hlast : pre.length ≠ 0 ∧ pre.length = s.len - 1
        · rw [if_pos hlast]
          have hre : rest = [] := List.length_eq_zero_iff.1 (by omega)
          subst hre
          have hpre : pre ≠ [] := by intro h; exact hlast.1 (by rw [h]; rfl)
          have hset : s.parts.set pre.length [] = (pre ++ [[]]) ++ [] := by rw [hp]; simp
          obtain ⟨d, h1, h2⟩ := ih (pre ++ [[]]) [] { s with parts := s.parts.set pre.length [] } hset (by simp [hl]) (by simp)
          have hu : undot (!pre.isEmpty) [p] = [[]] := by
            subst hpd
            cases pre with
            | nil => exact absurd rfl hpre
            | cons a b => simp [undot]
          refine ⟨d, ?_, ?_⟩
          · rw [hu]
            rw [List.length_append] at h1
            have e : (pre ++ [[]] ++ undot (!(pre ++ [[]]).isEmpty) [] : List Text) = pre ++ [[]] := by simp [undot]
            rw [e] at h1
            exact h1
          · rw [hu]
            have e : (pre ++ [[]] ++ undot (!(pre ++ [[]]).isEmpty) [] : List Text) = pre ++ [[]] := by simp [undot]
            rw [e] at h2
            simp only [List.length_set] at h2
            exact h2
        · rw [if_neg hlast]
          have herase : s.parts.eraseIdx pre.length = pre ++ rest := by rw [hp]; simp [List.eraseIdx_append]
          obtain ⟨d, h1, h2⟩ := ih pre rest { s with parts := s.parts.eraseIdx pre.length, len := s.len - 1, deleted := s.deleted + 1 } herase
            (by simp only; rw [herase, List.length_append]; omega) (by omega)
          have hu : undot (!pre.isEmpty) (p :: rest) = undot (!pre.isEmpty) rest := by
            unfold undot
            rw [if_neg (by simpa using hpd), if_neg]
            · cases rest <;> rfl
            · rintro ⟨ha, hb⟩
              apply hlast
              subst hb
              refine ⟨?_, by simp [hlen]⟩
              intro h
              have : pre = [] := List.length_eq_zero_iff.1 h
              subst this; simp at ha
          refine ⟨d, ?_, ?_⟩
          · rw [hu]; exact h1
          · rw [hu]
            simp only [herase] at h2
            rw [hp]
            rw [List.length_append] at h2 ⊢
            simp only [List.length_append, List.length_cons] at h2 ⊢
            omega
      · rw [if_pos hpd]
        obtain ⟨d, h1, h2⟩ := ih (pre ++ [p]) rest s (by rw [hp]; simp) hl (by omega)
        have hu : pre ++ undot (!pre.isEmpty) (p :: rest) = (pre ++ [p]) ++ undot (!(pre ++ [p]).isEmpty) rest := by
          unfold undot
          rw [if_pos hpd]
          have : (pre ++ [p]).isEmpty = false := by simp
          rw [this]
          cases rest <;> simp [undot]
        refine ⟨d, ?_, ?_⟩
        · rw [hu]
          rw [List.length_append] at h1
          exact h1
        · rw [hu]; exact h2

/-! ### Double dots -/

theorem walk_append (a b : List Text) : walk (a ++ b) = b.foldl walkStep (walk a) := by
  unfold walk; rw [List.foldl_append]

theorem walk_snoc (a : List Text) (p : Text) : walk (a ++ [p]) = walkStep (walk a) p := by
  rw [walk_append]; rfl

theorem walk_ups (n : Nat) : walk (List.replicate n ['.', '.']) = [] := by
  induction n with
  | zero => rfl
  | succ n ih => rw [List.replicate_succ', walk_snoc, ih]; rfl

theorem walkStep_dot (l : List Text) : walkStep l ['.'] = l := rfl
theorem walkStep_up (l : List Text) : walkStep l ['.', '.'] = l.dropLast := rfl

theorem walkStep_part {p : Text} (h1 : p ≠ ['.']) (h2 : p ≠ ['.', '.']) (l : List Text) : walkStep l p = l ++ [p] := by
  unfold walkStep
  rw [if_neg (by exact h1), if_neg (by exact h2)]

/-- Both loops on parts which are no single dots, from a state in which the last parts are done. -/
theorem dropPairs_spec : ∀ (n : Nat) (pre done : List Text) (s : Local), pre.length = n → (∀ p ∈ pre, p ≠ ['.']) →
    s.parts = pre ++ List.replicate s.toDelete ['.', '.'] ++ done → s.len = s.parts.length →
    ∃ s' s'', dropPairs n s = some s' ∧ dropFront s'.toDelete s' = some s'' ∧
      s''.parts = walk (pre ++ List.replicate s.toDelete ['.', '.']) ++ done ∧ s''.len = s''.parts.length ∧
      s''.deleted + s''.parts.length = s.deleted + s.parts.length := by
  intro n
  induction n with
  | zero =>
    intro pre done s hn _ hp hl
    have : pre = [] := List.length_eq_zero_iff.1 hn
    subst this
    rw [List.nil_append] at hp ⊢
    refine ⟨s, ?_⟩
    have key : ∀ (k : Nat) (s : Local), s.parts = List.replicate k ['.', '.'] ++ done → s.len = s.parts.length →
        ∃ s'', dropFront k s = some s'' ∧ s''.parts = done ∧ s''.len = s''.parts.length ∧ s''.deleted + s''.parts.length = s.deleted + s.parts.length := by
      intro k
      induction k with
      | zero => intro s h1 h2; exact ⟨s, rfl, by simpa using h1, h2, rfl⟩
      | succ k ih =>
        intro s h1 h2
        rw [List.replicate_succ, List.cons_append] at h1
        obtain ⟨s'', a, b, c, d⟩ := ih { parts := List.replicate k ['.', '.'] ++ done, len := s.len - 1, deleted := s.deleted + 1, toDelete := k } rfl
          (by simp only; rw [h2, h1]; simp)
        refine ⟨s'', ?_, b, c, ?_⟩
        · rw [dropFront, h1]; exact a
        · rw [d, h1]; simp only [List.length_cons]; omega
    obtain ⟨s'', a, b, c, d⟩ := key s.toDelete s hp hl
    exact ⟨s'', rfl, a, by rw [b, walk_ups]; rfl, c, d⟩
  | succ n ih =>
    intro pre done s hn hdot hp hl
    obtain ⟨pre', p, rfl⟩ : ∃ pre' p, pre = pre' ++ [p] := by
      refine ⟨pre.dropLast, pre.getLast (by intro h; rw [h] at hn; simp at hn), ?_⟩
      rw [List.dropLast_concat_getLast]
    have hn' : pre'.length = n := by simpa using hn
    have hget : s.parts[n]? = some p := by rw [hp, ← hn']; simp
    have hdot' : ∀ q ∈ pre', q ≠ ['.'] := fun q hq => hdot q (by simp [hq])
    have hpd : p ≠ ['.'] := hdot p (by simp)
    rw [dropPairs, hget]
    simp only
    by_cases hup : p = ['.', '.']
    · rw [if_pos hup]
      have e : pre' ++ [p] ++ List.replicate s.toDelete ['.', '.'] = pre' ++ List.replicate (s.toDelete + 1) ['.', '.'] := by
        rw [List.replicate_succ, hup]; simp
      rw [e] at hp ⊢
      exact ih pre' done { s with toDelete := s.toDelete + 1 } hn' hdot' hp hl
    · rw [if_neg hup]
      by_cases htd : s.toDelete = 0
      · rw [if_pos htd]
        rw [htd] at hp ⊢
        simp only [List.replicate_zero, List.append_nil] at hp ⊢
        obtain ⟨s', s'', a, b, c, d, e⟩ := ih pre' (p :: done) s hn' hdot' (by rw [hp, htd]; simp) hl
        refine ⟨s', s'', a, b, ?_, d, e⟩
        rw [c, htd, walk_snoc, walkStep_part hpd hup]
        simp
      · rw [if_neg htd]
        obtain ⟨k, hk⟩ : ∃ k, s.toDelete = k + 1 := ⟨s.toDelete - 1, by omega⟩
        have hlen : s.parts.length = n + 1 + (k + 1) + done.length := by rw [hp, hk]; simp [hn']; omega
        rw [if_pos (by omega)]
        have e1 : (s.parts.eraseIdx n).eraseIdx n = pre' ++ List.replicate k ['.', '.'] ++ done := by
          have e0 : s.parts = pre' ++ (p :: ['.', '.'] :: (List.replicate k ['.', '.'] ++ done)) := by
            rw [hp, hk, List.replicate_succ]; simp
          rw [e0, ← hn', List.eraseIdx_append_of_length_le (Nat.le_refl _), Nat.sub_self, List.eraseIdx_cons_zero,
            List.eraseIdx_append_of_length_le (Nat.le_refl _), Nat.sub_self, List.eraseIdx_cons_zero, List.append_assoc]
        obtain ⟨s', s'', a, b, c, d, e⟩ := ih pre' done
          { parts := (s.parts.eraseIdx n).eraseIdx n, len := s.len - 2, deleted := s.deleted + 2, toDelete := s.toDelete - 1 } hn' hdot'
          (by simp only; rw [e1, hk]; rfl) (by simp only; rw [e1, hl, hlen]; simp only [List.length_append, List.length_replicate, hn']; omega)
        refine ⟨s', s'', a, b, ?_, d, ?_⟩
        · rw [c]
          simp only
          rw [hk, Nat.add_sub_cancel, walk_append, walk_append, walk_snoc, walkStep_part hpd hup, List.replicate_succ, List.foldl_cons,
            walkStep_up, List.dropLast_concat]
        · rw [e]
          simp only
          rw [e1, hlen]
          simp only [List.length_append, List.length_replicate, hn']
          omega

theorem walk_filter (parts : List Text) : walk (parts.filter (· ≠ ['.'])) = walk parts := by
  have : ∀ (parts st : List Text), (parts.filter (· ≠ ['.'])).foldl walkStep st = parts.foldl walkStep st := by
    intro parts
    induction parts with
    | nil => intro st; rfl
    | cons p parts ih =>
      intro st
      by_cases hp : p = ['.']
      · rw [List.filter_cons_of_neg (by simp [hp]), ih, List.foldl_cons, hp, walkStep_dot]
      · rw [List.filter_cons_of_pos (by simp [hp]), List.foldl_cons, ih, List.foldl_cons]
  exact this parts []

/-- What is left in the end. -/
theorem normalizeParts_eq (parts : List Text) : ∃ d, d + (walk (undot false parts)).length = parts.length ∧
    normalizeParts parts = if walk (undot false parts) = [] ∨ (walk (undot false parts) = [[]] ∧ d ≠ 0) then .nothing
      else .parts (walk (undot false parts)) := by
  obtain ⟨d1, h1, h2⟩ := dropDots_spec parts.length [] parts { parts, len := parts.length } rfl rfl (Nat.le_refl _)
  simp only [List.length_nil, List.nil_append, List.isEmpty_nil, Bool.not_true] at h1 h2
  have hnd : ∀ p ∈ undot false parts, p ≠ ['.'] := by
    rw [undot_eq]
    intro p hp
    rw [List.mem_append] at hp
    rcases hp with hp | hp
    · have := (List.mem_filter.1 hp).2
      simpa using this
    · split at hp
      · rw [List.mem_singleton.1 hp]; decide
      · simp at hp
  obtain ⟨s', s'', a, b, c, d, e⟩ := dropPairs_spec (undot false parts).length (undot false parts) []
    { parts := undot false parts, len := (undot false parts).length, deleted := d1, toDelete := 0 } rfl hnd (by simp) rfl
  simp only [List.replicate_zero, List.append_nil] at c e
  refine ⟨s''.deleted, by rw [← c]; omega, ?_⟩
  rw [normalizeParts, h1]
  simp only
  rw [a]
  simp only
  rw [b]
  simp only
  rw [← c]
  unfold lastly
  by_cases h0 : s''.parts = []
  · rw [if_pos (Or.inl h0)]
    simp [h0, d]
  · by_cases h1 : s''.parts = [[]] ∧ s''.deleted ≠ 0
    · rw [if_pos (Or.inr h1)]
      have hl : s''.len = 1 := by rw [d, h1.1]; rfl
      simp [h1.1, h1.2, hl]
    · rw [if_neg (show ¬ (s''.parts = [] ∨ (s''.parts = [[]] ∧ s''.deleted ≠ 0)) from fun h => h.elim h0 h1)]
      have hn : ¬ (s''.deleted ≠ 0 ∧ s''.len = 1 ∧ s''.parts.head? = some []) := by
        rintro ⟨x, y, z⟩
        rw [d] at y
        apply h1
        obtain ⟨q, hq⟩ := List.length_eq_one_iff.1 y
        rw [hq] at z ⊢
        simp only [List.head?_cons, Option.some.injEq] at z
        exact ⟨by rw [z], x⟩
      have hl : s''.parts.length ≠ 0 := by rwa [ne_eq, List.length_eq_zero_iff]
      rw [← d] at hl
      simp only [if_neg hn, if_neg hl]

/-! ### C40 -/

/-- **C40.** Normalising parts gives where walking them from the root ends; if that is the root itself, or the root with a slash only, there
is no path. -/
theorem C40_walk (parts : List Text) :
    normalizeParts parts = if place parts = [] ∨ (place parts = [[]] ∧ parts ≠ [[]]) then .nothing else .parts (place parts) := by
  obtain ⟨d, hd, h⟩ := normalizeParts_eq parts
  rw [h]
  clear h
  have hu := undot_eq parts false
  simp only [Bool.false_eq_true, false_or] at hu
  by_cases hl : parts.getLast? = some ['.']
  · have hp : place parts = if walk parts ≠ [] then walk parts ++ [[]] else walk parts := by
      unfold place; simp only [show ".".toList = ['.'] from rfl, hl, true_and]
    have hne : parts ≠ [[]] := by rintro rfl; simp at hl
    by_cases hf : parts.filter (· ≠ ['.']) = []
    · have hw : walk parts = [] := by rw [← walk_filter, hf]; rfl
      rw [if_neg (by rintro ⟨_, h⟩; exact h hf), List.append_nil] at hu
      rw [hu, walk_filter, hp]; simp [hw]
    · rw [if_pos ⟨hl, hf⟩] at hu
      have hW : walk (undot false parts) = walk parts ++ [[]] := by
        rw [hu, walk_snoc, walk_filter, walkStep_part (by decide) (by decide)]
      rw [hW] at hd ⊢
      by_cases hw : walk parts = []
      · have hd0 : d ≠ 0 := by
          rw [hw] at hd
          simp only [List.nil_append, List.length_cons, List.length_nil] at hd
          rintro rfl
          obtain ⟨q, hq⟩ := List.length_eq_one_iff.1 hd.symm
          rw [hq] at hl hf
          simp only [List.getLast?_singleton, Option.some.injEq] at hl
          rw [hl] at hf
          exact hf rfl
        rw [hp]; simp [hw, hd0]
      · rw [hp, if_pos hw]
        simp [hw]
  · have hp : place parts = walk parts := by
      unfold place; rw [if_neg]; rintro ⟨h, _⟩; exact hl h
    rw [if_neg (by rintro ⟨h, _⟩; exact hl h), List.append_nil] at hu
    have hW : walk (undot false parts) = walk parts := by rw [hu, walk_filter]
    rw [hW] at hd ⊢
    rw [hp]
    by_cases hw : walk parts = [[]]
    · have : d ≠ 0 ↔ parts ≠ [[]] := by
        rw [hw] at hd
        simp only [List.length_cons, List.length_nil] at hd
        constructor
        · rintro h rfl; simp at hd; exact h hd
        · rintro h rfl
          apply h
          obtain ⟨q, hq⟩ := List.length_eq_one_iff.1 (by omega : parts.length = 1)
          rw [hq] at hw ⊢
          unfold walk at hw
          simp only [List.foldl_cons, List.foldl_nil] at hw
          unfold walkStep at hw
          split at hw
          · simp at hw
          · split at hw
            · simp at hw
            · simpa using hw
      simp only [this]
    · simp [hw]

theorem walk_clean (parts : List Text) : ∀ p ∈ walk parts, p ≠ ".".toList ∧ p ≠ "..".toList := by
  have : ∀ (parts st : List Text), (∀ p ∈ st, p ≠ ".".toList ∧ p ≠ "..".toList) → ∀ p ∈ parts.foldl walkStep st, p ≠ ".".toList ∧ p ≠ "..".toList := by
    intro parts
    induction parts with
    | nil => intro st h; exact h
    | cons q parts ih =>
      intro st h
      rw [List.foldl_cons]
      apply ih
      unfold walkStep
      intro p hp
      split at hp
      · exact h p hp
      · rename_i h1
        split at hp
        · exact h p (List.dropLast_subset _ hp)
        · rename_i h2
          rcases List.mem_append.1 hp with hp | hp
          · exact h p hp
          · rw [List.mem_singleton.1 hp]; exact ⟨h1, h2⟩
  exact this parts [] (by simp)

theorem place_clean (parts : List Text) : ∀ p ∈ place parts, p ≠ ".".toList ∧ p ≠ "..".toList := by
  intro p hp
  unfold place at hp
  split at hp
  · rcases List.mem_append.1 hp with hp | hp
    · exact walk_clean parts p hp
    · rw [List.mem_singleton.1 hp]; decide
  · exact walk_clean parts p hp

/-- **C40.** There is no dot part left. -/
theorem C40_no_dots (parts l : List Text) (h : normalizeParts parts = .parts l) : ∀ p ∈ l, p ≠ ".".toList ∧ p ≠ "..".toList := by
  rw [C40_walk] at h
  split at h
  · simp at h
  · cases h; exact place_clean parts

/-- **C40.** The parts of a parsed path have no dot part, also not one which was written with escapes. -/
theorem C40_parse (value : Text) (encoded : Bool) (l : List Text) (h : parsePath value encoded = .parts l) :
    ∀ p ∈ l, p ≠ ".".toList ∧ p ≠ "..".toList := by
  unfold parsePath at h
  split at h
  · simp at h
  · dsimp only at h
    generalize (if encoded = true then decodeAll (split '/' (if value.head? = some '/' then List.drop 1 value else value))
      else some (split '/' (if value.head? = some '/' then List.drop 1 value else value))) = x at h
    cases x with
    | none => simp at h
    | some parts =>
      dsimp only at h
      split at h
      · simp at h
      · simp at h
      · rename_i l' hl
        cases h
        exact C40_no_dots _ _ hl

example : normalizeParts ["a".toList, ".".toList, "b".toList, "..".toList, "..".toList, "..".toList, "c".toList, ".".toList]
    = .parts ["c".toList, []] := by decide
example : parsePath "/a/%2E%2E/%2E%2E/b".toList true = .parts ["b".toList] := by decide +kernel

/-! ### Splitting -/

theorem split_ne_nil (sep : Char) (t : Text) : split sep t ≠ [] := by
  cases t with
  | nil => simp [split]
  | cons c t =>
    unfold split
    split
    · simp
    · split <;> simp

theorem split_plain {sep : Char} {p : Text} (h : sep ∉ p) : split sep p = [p] := by
  induction p with
  | nil => rfl
  | cons c p ih =>
    have hc : c ≠ sep := by rintro rfl; exact h List.mem_cons_self
    rw [split, if_neg hc, ih fun h' => h (List.mem_cons_of_mem _ h')]

theorem split_first {sep : Char} {p : Text} (h : sep ∉ p) (t : Text) : split sep (p ++ sep :: t) = p :: split sep t := by
  induction p with
  | nil => simp [split]
  | cons c p ih =>
    have hc : c ≠ sep := by rintro rfl; exact h List.mem_cons_self
    rw [List.cons_append, split, if_neg hc, ih fun h' => h (List.mem_cons_of_mem _ h')]

theorem split_joined {sep : Char} : ∀ (ps : List Text) (p : Text), sep ∉ p → (∀ q ∈ ps, sep ∉ q) →
    split sep (p ++ ps.flatMap (sep :: ·)) = p :: ps := by
  intro ps
  induction ps with
  | nil => intro p h _; simpa using split_plain h
  | cons q ps ih =>
    intro p h hq
    rw [List.flatMap_cons, List.cons_append, split_first h, ih q (hq q List.mem_cons_self) fun q' h' => hq q' (List.mem_cons_of_mem _ h')]

/-! ### What quoting makes of texts here -/

theorem hexDigit_mem : ∀ n : Fin 16, Quoting.hexDigit n.val ∈ "0123456789ABCDEF".toList := by decide

theorem mem_escape {b : UInt8} {c : Char} (h : c ∈ Quoting.escape b) : c ∈ "%0123456789ABCDEF".toList := by
  have hb := b.toNat_lt
  have h1 := hexDigit_mem ⟨b.toNat / 16, by omega⟩
  have h2 := hexDigit_mem ⟨b.toNat % 16, by omega⟩
  simp only [Quoting.escape, List.mem_cons, List.not_mem_nil, or_false] at h
  have e : "%0123456789ABCDEF".toList = '%' :: "0123456789ABCDEF".toList := rfl
  rw [e, List.mem_cons]
  rcases h with rfl | rfl | rfl
  · exact Or.inl rfl
  · exact Or.inr h1
  · exact Or.inr h2

/-- A character of the output is a safe one which was there, `+` for a space, or belongs to an escape. -/
theorem mem_pieces {safe : Text} {query : Bool} {t : Text} {c : Char} (h : c ∈ t.flatMap (Quoting.piece safe query)) :
    (query = true ∧ c = '+') ∨ (c ∈ safe ∧ c ∈ t) ∨ c ∈ "%0123456789ABCDEF".toList := by
  rw [List.mem_flatMap] at h
  obtain ⟨a, ha, hc⟩ := h
  unfold Quoting.piece at hc
  split at hc
  · rename_i hq; exact Or.inl ⟨hq.1, by simpa using hc⟩
  · split at hc
    · rename_i hs
      rw [List.mem_singleton] at hc
      subst hc
      exact Or.inr (Or.inl ⟨hs, ha⟩)
    · rw [List.mem_flatMap] at hc
      obtain ⟨b, _, hb⟩ := hc
      exact Or.inr (Or.inr (mem_escape hb))

theorem ascii_part : Quoting.Ascii ['@', ':'] ∧ Quoting.Ascii ['/'] ∧ Quoting.Ascii ['/', '?', ':', '@', '='] ∧ Quoting.Ascii [] := by
  unfold Quoting.Ascii; decide

theorem encodePart_eq (t : Text) : encodePart t = t.flatMap (Quoting.piece (Quoting.safeSet ['@', ':'] ['/'] false) false) := by
  unfold encodePart Quoting.quote
  rw [Quoting.quote_pieces (Quoting.safeSet_ascii ascii_part.1 ascii_part.2.1)]; rfl

theorem encodeItem_eq (t : Text) : encodeItem t = t.flatMap (Quoting.piece (Quoting.safeSet ['/', '?', ':', '@', '='] [] true) true) := by
  unfold encodeItem Quoting.quote
  rw [Quoting.quote_pieces (Quoting.safeSet_ascii ascii_part.2.2.1 ascii_part.2.2.2)]; rfl

theorem slash_encodePart {t : Text} (h : '/' ∉ t) : '/' ∉ encodePart t := by
  rw [encodePart_eq]
  intro h'
  rcases mem_pieces h' with ⟨h1, _⟩ | ⟨_, h1⟩ | h1
  · simp at h1
  · exact h h1
  · exact absurd h1 (by decide)

theorem amp_encodeItem (t : Text) : '&' ∉ encodeItem t := by
  rw [encodeItem_eq]
  intro h'
  rcases mem_pieces h' with ⟨_, h1⟩ | ⟨h1, _⟩ | h1
  · exact absurd h1 (by decide)
  · exact absurd h1 (by decide)
  · exact absurd h1 (by decide)

theorem eq_encodeItem {t : Text} (h : '=' ∉ t) : '=' ∉ encodeItem t := by
  rw [encodeItem_eq]
  intro h'
  rcases mem_pieces h' with ⟨_, h1⟩ | ⟨_, h1⟩ | h1
  · exact absurd h1 (by decide)
  · exact h h1
  · exact absurd h1 (by decide)

/-- The characters which survive in paths, see `Quoting.Survives`. -/
def SurvivesInPath (t : Text) : Prop := ∀ c ∈ t, Quoting.Survives ['@', ':'] ['/'] false false c

/-- The characters which survive in queries, see `Quoting.Survives`. -/
def SurvivesInQuery (t : Text) : Prop := ∀ c ∈ t, Quoting.Survives ['/', '?', ':', '@', '='] [] true false c

theorem unquote_encodePart {t : Text} (h : SurvivesInPath t) : Quoting.unquote (encodePart t) = some t := by
  obtain ⟨q, h1, h2⟩ := Quoting.C38_partial _ _ ascii_part.1 ascii_part.2.1 false false t h
  rw [encodePart, h1]; exact h2

theorem unquote_encodeItem {t : Text} (h : SurvivesInQuery t) : Quoting.unquote (encodeItem t) = some t := by
  obtain ⟨q, h1, h2⟩ := Quoting.C38_partial _ _ ascii_part.2.2.1 ascii_part.2.2.2 true false t h
  rw [encodeItem, h1]; exact h2

/-! ### C63 -/

theorem decodeAll_encoded : ∀ (parts : List Text), (∀ p ∈ parts, SurvivesInPath p) → decodeAll (parts.map encodePart) = some parts := by
  intro parts
  induction parts with
  | nil => intro _; rfl
  | cons p parts ih =>
    intro h
    rw [List.map_cons, decodeAll, unquote_encodePart (h p List.mem_cons_self), ih fun q hq => h q (List.mem_cons_of_mem _ hq)]

theorem serialize_split (parts : List Text) (encoded : Bool) (hne : parts ≠ []) (hs : ∀ p ∈ parts, '/' ∉ p) :
    ∃ t, serializePath parts encoded = '/' :: t ∧ split '/' t = parts.map fun p => if encoded then encodePart p else p := by
  cases parts with
  | nil => exact absurd rfl hne
  | cons p parts =>
    have hf : ∀ q : Text, '/' ∉ q → '/' ∉ (if encoded then encodePart q else q) := by
      intro q hq
      cases encoded
      · exact hq
      · exact slash_encodePart hq
    refine ⟨(if encoded then encodePart p else p) ++ (parts.map fun p => if encoded then encodePart p else p).flatMap ('/' :: ·), ?_, ?_⟩
    · rw [serializePath, if_neg (by simp), List.flatMap_cons, List.cons_append]
      congr 2
      rw [List.flatMap_map]
    · rw [split_joined _ _ (hf p (hs p List.mem_cons_self))]
      · rfl
      · intro q hq
        obtain ⟨a, ha, rfl⟩ := List.mem_map.1 hq
        exact hf a (hs a (List.mem_cons_of_mem _ ha))

/-- **C63, part.** A normal path whose parts hold no slash and whose first part is not empty is found again after it was written, encoded or not;
if it is encoded the characters have to be ones which survive quoting. -/
theorem C63_partial (parts : List Text) (encoded : Bool) (hn : normalizeParts parts = .parts parts) (hs : ∀ p ∈ parts, '/' ∉ p)
    (h0 : parts.head? ≠ some []) (hq : encoded = true → ∀ p ∈ parts, SurvivesInPath p) :
    parsePath (serializePath parts encoded) encoded = .parts parts := by
  have hne : parts ≠ [] := by rintro rfl; simp [normalizeParts, dropDots, dropPairs, dropFront, lastly] at hn
  obtain ⟨t, h1, h2⟩ := serialize_split parts encoded hne hs
  rw [h1, parsePath, if_neg (by simp)]
  simp only [List.head?_cons, ↓reduceIte, List.drop_one, List.tail_cons]
  rw [h2]
  cases encoded with
  | false => simp [h0, hn]
  | true =>
    simp only [↓reduceIte]
    rw [decodeAll_encoded _ (hq rfl)]
    simp [h0, hn]

example : normalizeParts ["a b".toList, "c".toList, []] = .parts ["a b".toList, "c".toList, []] := by decide
example : serializePath ["a b".toList, "c".toList, []] true = "/a%20b/c/".toList := by decide +kernel
example : parsePath "/a%20b/c/".toList true = .parts ["a b".toList, "c".toList, []] := by decide +kernel

/-- **C63 is violated**: a slash within a part is not escaped when the path is written, so that the part falls apart: `..` parts can come out of
it and lead out of the place. The path of this text has the parts `a` and `../../b`. -/
theorem C63_slash_violated : parsePath "/a/..%2F..%2Fb".toList true = .parts ["a".toList, "../../b".toList] ∧
    serializePath ["a".toList, "../../b".toList] true = "/a/../../b".toList ∧
    parsePath "/a/../../b".toList true = .parts ["b".toList] := by
  decide +kernel

theorem normalize_plain (p : Text) (h1 : p ≠ ['.']) (h2 : p ≠ ['.', '.']) (h0 : p ≠ []) :
    normalizeParts [p] = .parts [p] ∧ normalizeParts [[], p] = .parts [[], p] := by
  have hw : ∀ l, walkStep l p = l ++ [p] := walkStep_part h1 h2
  have hw0 : walkStep [] [] = [[]] := rfl
  constructor
  · rw [C40_walk]
    have : place [p] = [p] := by
      unfold place walk
      rw [if_neg (by rintro ⟨h, _⟩; simp only [List.getLast?_singleton, Option.some.injEq] at h; exact h1 h)]
      simp [hw]
    rw [this, if_neg (by simp [h0])]
  · rw [C40_walk]
    have : place [[], p] = [[], p] := by
      unfold place walk
      rw [if_neg (by rintro ⟨h, _⟩; simp only [List.getLast?_cons_cons, List.getLast?_singleton, Option.some.injEq] at h; exact h1 h)]
      simp [hw0, hw]
    rw [this, if_neg (by simp)]

/-- **C63 is violated**: an empty first part is lost. A path like `///a` has the parts `` and `a`; it is written as `//a`, which has the part `a`
only. -/
theorem C63_empty_violated (p : Text) (hs : '/' ∉ p) (h1 : p ≠ ".".toList) (h2 : p ≠ "..".toList) (h0 : p ≠ []) :
    parsePath ("///".toList ++ p) false = .parts [[], p] ∧ serializePath [[], p] false = "//".toList ++ p ∧
    parsePath ("//".toList ++ p) false = .parts [p] := by
  have hn := normalize_plain p h1 h2 h0
  have e3 : "///".toList ++ p = '/' :: '/' :: '/' :: p := rfl
  have e2 : "//".toList ++ p = '/' :: '/' :: p := rfl
  have hsplit : split '/' ('/' :: '/' :: p) = [[], [], p] := by simp [split, split_plain hs]
  have hsplit' : split '/' ('/' :: p) = [[], p] := by simp [split, split_plain hs]
  refine ⟨?_, by simp [serializePath], ?_⟩
  · rw [e3, parsePath, if_neg (by simp)]
    simp [hsplit, hn.2]
  · rw [e2, parsePath, if_neg (by simp)]
    simp [hsplit', hn.1]

/-! ### C41 -/

theorem insertText_perm (k : Text) (l : List Text) : (insertText k l).Perm (k :: l) := by
  induction l with
  | nil => exact List.Perm.refl _
  | cons a l ih =>
    unfold insertText
    split
    · exact List.Perm.refl _
    · exact (ih.cons a).trans (List.Perm.swap k a l)

theorem sortTexts_perm (l : List Text) : (sortTexts l).Perm l := by
  induction l with
  | nil => exact List.Perm.refl _
  | cons a l ih =>
    have e : sortTexts (a :: l) = insertText a (sortTexts l) := rfl
    rw [e]
    exact (insertText_perm a _).trans (ih.cons a)

open MultiDict (Dict Good)

/-- Setting the values of a key which is not there yet, one after the other. -/
theorem set_values (k : Text) : ∀ (vs done : List Text) (d : Query), k ∉ d.map (·.1) → done ≠ [] → (done ++ vs).Nodup →
    (vs.map fun v => (k, v)).foldl (fun (d : Query) e => Dict.set id d e.1 e.2) (d ++ [(k, done)]) = d ++ [(k, done ++ vs)] := by
  intro vs
  induction vs with
  | nil => intro done d _ _ _; simp
  | cons v vs ih =>
    intro done d hk hne hnd
    have hget : Dict.get id (d ++ [(k, done)]) k = some done := by
      unfold Dict.get
      rw [List.find?_append]
      have : d.find? (fun e => decide (id e.1 = id k)) = none := by
        rw [List.find?_eq_none]
        intro e he hc
        apply hk
        simp only [id, decide_eq_true_eq] at hc
        rw [← hc]
        exact List.mem_map_of_mem he
      rw [this]; simp
    have hput : Dict.put id (d ++ [(k, done)]) k (done ++ [v]) = d ++ [(k, done ++ [v])] := by
      clear hget ih hnd
      induction d with
      | nil => simp [Dict.put]
      | cons e d ihd =>
        have he : e.1 ≠ k := by rintro rfl; exact hk (by simp)
        rw [List.cons_append, Dict.put, if_neg (show ¬ id e.1 = id k from he), ihd fun h => hk (by simp only [List.map_cons, List.mem_cons]; exact Or.inr h)]
        rfl
    have hv : v ∉ done := by
      intro h
      rw [List.nodup_append] at hnd
      exact hnd.2.2 v h v List.mem_cons_self rfl
    rw [List.map_cons, List.foldl_cons]
    have hset : Dict.set id (d ++ [(k, done)]) k v = d ++ [(k, done ++ [v])] := by
      unfold Dict.set; rw [hget]; simp only; rw [if_neg hv, hput]
    rw [hset, ih (done ++ [v]) d hk (by simp) (by simpa using hnd)]
    simp

theorem set_first (k v : Text) (d : Query) (hk : k ∉ d.map (·.1)) : Dict.set id d k v = d ++ [(k, [v])] := by
  have hget : Dict.get id d k = none := by rw [MultiDict.get_none]; exact hk
  unfold Dict.set
  rw [hget]
  simp only
  clear hget
  induction d with
  | nil => rfl
  | cons e d ihd =>
    have he : e.1 ≠ k := by rintro rfl; exact hk (by simp)
    rw [Dict.put, if_neg (show ¬ id e.1 = id k from he), ihd fun h => hk (by simp only [List.map_cons, List.mem_cons]; exact Or.inr h)]
    rfl

/-- Setting all pairs of keys which are not there yet. -/
theorem set_pairs (f : Text → List Text) : ∀ (ks : List Text) (d : Query), (∀ k ∈ ks, k ∉ d.map (·.1)) → ks.Nodup →
    (∀ k ∈ ks, f k ≠ [] ∧ (f k).Nodup) →
    (ks.flatMap fun k => (f k).map fun v => (k, v)).foldl (fun (d : Query) e => Dict.set id d e.1 e.2) d = d ++ ks.map fun k => (k, f k) := by
  intro ks
  induction ks with
  | nil => intro d _ _ _; simp
  | cons k ks ih =>
    intro d hk hnd hf
    obtain ⟨h1, h2⟩ := hf k List.mem_cons_self
    rw [List.flatMap_cons, List.foldl_append]
    have : ((f k).map fun v => (k, v)).foldl (fun (d : Query) e => Dict.set id d e.1 e.2) d = d ++ [(k, f k)] := by
      cases hv : f k with
      | nil => exact absurd hv h1
      | cons v vs =>
        rw [List.map_cons, List.foldl_cons, set_first k v d (hk k List.mem_cons_self),
          set_values k vs [v] d (hk k List.mem_cons_self) (by simp) (by rw [hv] at h2; exact h2)]
        rfl
    rw [this, ih _ _ (List.nodup_cons.1 hnd).2 fun k' h' => hf k' (List.mem_cons_of_mem _ h')]
    · simp
    · intro k' h'
      rw [List.map_append, List.mem_append]
      rintro (h | h)
      · exact hk k' (List.mem_cons_of_mem _ h') h
      · have : k' = k := by simpa using h
        subst this
        exact (List.nodup_cons.1 hnd).1 h'

/-- Setting the pairs in the order they are written gives the dictionary back, up to the order of the keys. -/
theorem set_written (d : Query) (hd : Good id d) :
    ((writtenPairs d).foldl (fun (d : Query) e => Dict.set id d e.1 e.2) []).Perm d := by
  have hp := sortTexts_perm (d.map (·.1))
  have hk : (d.map (·.1)).Nodup := hd.keys
  unfold writtenPairs
  rw [set_pairs _ _ [] (by simp) (hp.nodup_iff.2 hk)]
  · rw [List.nil_append]
    refine (hp.map _).trans ?_
    rw [List.map_map]
    have : d.map ((fun k => (k, ((Dict.get id d k).getD []))) ∘ (·.1)) = d := by
      have key : ∀ e ∈ d, ((fun k => (k, ((Dict.get id d k).getD []))) ∘ (·.1)) e = e := by
        intro e he
        have : Dict.get id d e.1 = some e.2 := by
          clear hp hd
          induction d with
          | nil => simp at he
          | cons a d ih =>
            rw [MultiDict.get_cons]
            rcases List.mem_cons.1 he with rfl | he
            · simp
            · have : a.1 ≠ e.1 := by
                intro h
                rw [List.map_cons, List.nodup_cons] at hk
                exact hk.1 (h ▸ List.mem_map_of_mem he)
              simp only [id, this, ↓reduceIte]
              exact ih (by rw [List.map_cons, List.nodup_cons] at hk; exact hk.2) he
        simp [this]
      conv => rhs; rw [← List.map_id d]
      exact List.map_congr_left key
    rw [this]
  · intro k h
    have hm := hp.mem_iff.1 h
    cases hg : Dict.get id d k with
    | none => rw [MultiDict.get_none] at hg; exact absurd hm hg
    | some vs => exact hd.get_ne hg

theorem takeWhile_sep {k : Text} (h : '=' ∉ k) (v : Text) : splitItem (k ++ ['='] ++ v) = (k, v) := by
  have hk : ∀ c ∈ k, decide (c ≠ '=') = true := by
    intro c hc; simp only [decide_eq_true_eq]; rintro rfl; exact h hc
  unfold splitItem
  rw [List.append_assoc, List.takeWhile_append_of_pos hk, List.dropWhile_append_of_pos hk]
  simp

theorem parse_pieces (encoded : Bool) (f : Text → Text) : ∀ (pairs : List (Text × Text)) (d : Query),
    (∀ e ∈ pairs, '=' ∉ f e.1) → (∀ e ∈ pairs, encoded = true → Quoting.unquote (f e.1) = some e.1 ∧ Quoting.unquote (f e.2) = some e.2) →
    (encoded = false → f = id) →
    parseItems encoded (pairs.map fun e => f e.1 ++ ['='] ++ f e.2) d = some (pairs.foldl (fun (d : Query) e => Dict.set id d e.1 e.2) d) := by
  intro pairs
  induction pairs with
  | nil => intro d _ _ _; rfl
  | cons e pairs ih =>
    intro d h1 h2 h3
    have hne : f e.1 ++ ['='] ++ f e.2 ≠ [] := by simp
    rw [List.map_cons, parseItems, if_neg hne, takeWhile_sep (h1 e List.mem_cons_self), List.foldl_cons]
    have hi := fun d' => ih d' (fun e he => h1 e (List.mem_cons_of_mem _ he)) (fun e he => h2 e (List.mem_cons_of_mem _ he)) h3
    cases encoded with
    | false =>
      have := h3 rfl
      subst this
      simp only [id, Bool.false_eq_true, ↓reduceIte]
      exact hi _
    | true =>
      obtain ⟨a, b⟩ := h2 e List.mem_cons_self rfl
      simp only [↓reduceIte, a, b]
      exact hi _

theorem intersperse_flatten (sep : Text) (p : Text) (ps : List Text) :
    (List.intersperse sep (p :: ps)).flatten = p ++ ps.flatMap (sep ++ ·) := by
  induction ps generalizing p with
  | nil => simp
  | cons q ps ih => rw [List.intersperse_cons_cons, List.flatten_cons, List.flatten_cons, ih, List.flatMap_cons]; simp

/-- Round trip for a way of writing keys and values. -/
theorem query_round_trip (d : Query) (hd : Good id d) (encoded : Bool)
    (hk : ∀ e ∈ writtenPairs d, '=' ∉ e.1) (hamp : encoded = false → ∀ e ∈ writtenPairs d, '&' ∉ e.1 ∧ '&' ∉ e.2)
    (hq : encoded = true → ∀ e ∈ writtenPairs d, SurvivesInQuery e.1 ∧ SurvivesInQuery e.2) :
    ∃ d', parseQuery (serializeQuery d encoded) encoded = some d' ∧ d'.Perm d := by
  by_cases hne : d = []
  · subst hne; exact ⟨[], by simp [serializeQuery, parseQuery], List.Perm.refl _⟩
  · refine ⟨_, ?_, set_written d hd⟩
    rw [serializeQuery, if_neg hne]
    simp only [parseQuery]
    have hf : ∀ e ∈ writtenPairs d, '=' ∉ (if encoded then encodeItem e.1 else e.1) ∧
        '&' ∉ (if encoded then encodeItem e.1 else e.1) ++ ['='] ++ (if encoded then encodeItem e.2 else e.2) := by
      intro e he
      cases encoded with
      | false =>
        have := hamp rfl e he
        refine ⟨hk e he, ?_⟩
        simp [this.1, this.2]
      | true =>
        refine ⟨eq_encodeItem (hk e he), ?_⟩
        simp [amp_encodeItem]
    have hsplit : split '&' ((List.intersperse ['&'] ((writtenPairs d).map fun e =>
        (if encoded then encodeItem e.1 else e.1) ++ ['='] ++ (if encoded then encodeItem e.2 else e.2))).flatten) =
        (writtenPairs d).map fun e => (if encoded then encodeItem e.1 else e.1) ++ ['='] ++ (if encoded then encodeItem e.2 else e.2) := by
      cases hw : writtenPairs d with
      | nil =>
        exfalso
        have := set_written d hd
        rw [hw] at this
        exact hne this.nil_eq.symm
      | cons e es =>
        rw [List.map_cons, intersperse_flatten]
        have := split_joined (sep := '&') (es.map fun e => (if encoded then encodeItem e.1 else e.1) ++ ['='] ++ (if encoded then encodeItem e.2 else e.2))
          ((if encoded then encodeItem e.1 else e.1) ++ ['='] ++ (if encoded then encodeItem e.2 else e.2))
          (hf e (by rw [hw]; exact List.mem_cons_self)).2 (by
            intro q hq
            obtain ⟨a, ha, rfl⟩ := List.mem_map.1 hq
            exact (hf a (by rw [hw]; exact List.mem_cons_of_mem _ ha)).2)
        exact this
    rw [hsplit]
    refine parse_pieces encoded (fun t => if encoded then encodeItem t else t) _ _ (fun e he => (hf e he).1) ?_ ?_
    · rintro e he rfl
      have := hq rfl e he
      exact ⟨unquote_encodeItem this.1, unquote_encodeItem this.2⟩
    · rintro rfl; rfl

theorem mem_written {d : Query} {e : Text × Text} (h : e ∈ writtenPairs d) : ∃ vs, (e.1, vs) ∈ d ∧ e.2 ∈ vs := by
  unfold writtenPairs at h
  rw [List.mem_flatMap] at h
  obtain ⟨k, _, h⟩ := h
  obtain ⟨v, hv, rfl⟩ := List.mem_map.1 h
  cases hg : Dict.get id d k with
  | none => rw [hg] at hv; simp at hv
  | some vs =>
    rw [hg] at hv
    unfold Dict.get at hg
    rw [Option.map_eq_some_iff] at hg
    obtain ⟨a, ha, rfl⟩ := hg
    have h1 := List.mem_of_find?_eq_some ha
    have h2 := List.find?_some ha
    simp only [id, decide_eq_true_eq] at h2
    exact ⟨a.2, by rw [← h2]; exact h1, hv⟩

/-- **C41, part.** An encoded query is parsed to the same keys with the same values in the same order, if no key holds a `=` and the characters
survive quoting. Every dictionary has the invariant `Good` (C35). -/
theorem C41_encoded_partial (d : Query) (hd : Good id d) (hk : ∀ e ∈ d, '=' ∉ e.1)
    (hq : ∀ e ∈ d, SurvivesInQuery e.1 ∧ ∀ v ∈ e.2, SurvivesInQuery v) :
    ∃ d', parseQuery (serializeQuery d true) true = some d' ∧ d'.Perm d := by
  refine query_round_trip d hd true ?_ (by simp) ?_
  · intro e he
    obtain ⟨vs, h1, _⟩ := mem_written he
    exact hk _ h1
  · intro _ e he
    obtain ⟨vs, h1, h2⟩ := mem_written he
    exact ⟨(hq _ h1).1, (hq _ h1).2 _ h2⟩

/-- **C41, part.** The same for queries which are not encoded, if no key holds a `=` and neither a key nor a value holds a `&`. -/
theorem C41_decoded_partial (d : Query) (hd : Good id d) (hk : ∀ e ∈ d, '=' ∉ e.1 ∧ '&' ∉ e.1 ∧ ∀ v ∈ e.2, '&' ∉ v) :
    ∃ d', parseQuery (serializeQuery d false) false = some d' ∧ d'.Perm d := by
  refine query_round_trip d hd false ?_ ?_ (by simp)
  · intro e he
    obtain ⟨vs, h1, _⟩ := mem_written he
    exact (hk _ h1).1
  · intro _ e he
    obtain ⟨vs, h1, h2⟩ := mem_written he
    exact ⟨(hk _ h1).2.1, (hk _ h1).2.2 _ h2⟩

example : serializeQuery [("b".toList, ["1 2".toList, "x=&y".toList]), ("a".toList, [[]])] true = some "a=&b=1+2&b=x=%26y".toList := by decide +kernel
example : parseQuery (some "a=&b=1+2&b=x=%26y".toList) true = some [("a".toList, [[]]), ("b".toList, ["1 2".toList, "x=&y".toList])] := by
  decide +kernel

theorem written_single (k v : Text) : writtenPairs [(k, [v])] = [(k, v)] := by
  simp [writtenPairs, sortTexts, insertText, Dict.get]

/-- **C41 is violated**: the `=` of a key is not escaped, what comes after it is read as part of the value. -/
theorem C41_key_violated (a b v : Text) (ha : '=' ∉ a) (hb : SurvivesInQuery (b ++ ['='] ++ v)) (hs : SurvivesInQuery a) :
    parseQuery (serializeQuery [(a ++ ['='] ++ b, [v])] true) true = some [(a, [b ++ ['='] ++ v])] := by
  have e1 : encodeItem (a ++ ['='] ++ b) = encodeItem a ++ ['='] ++ encodeItem b := by
    simp only [encodeItem_eq, List.flatMap_append, List.flatMap_cons, List.flatMap_nil, List.append_nil]
    congr 1
  have e2 : encodeItem (b ++ ['='] ++ v) = encodeItem b ++ ['='] ++ encodeItem v := by
    simp only [encodeItem_eq, List.flatMap_append, List.flatMap_cons, List.flatMap_nil, List.append_nil]
    congr 1
  have e3 : encodeItem (a ++ ['='] ++ b) ++ ['='] ++ encodeItem v = encodeItem a ++ ['='] ++ encodeItem (b ++ ['='] ++ v) := by
    rw [e1, e2]; simp
  have hamp : '&' ∉ encodeItem a ++ ['='] ++ encodeItem (b ++ ['='] ++ v) := by simp [amp_encodeItem]
  rw [serializeQuery, if_neg (by simp), written_single]
  simp only [List.map_cons, List.map_nil, ↓reduceIte, List.intersperse_singleton, List.flatten_cons, List.flatten_nil, List.append_nil, parseQuery]
  rw [e3, split_plain hamp, parseItems, if_neg (by simp), takeWhile_sep (eq_encodeItem ha)]
  simp only [↓reduceIte]
  rw [unquote_encodeItem hs, unquote_encodeItem hb]
  rfl

/-- **C41 is violated**: a value can be one which does not survive quoting (C38). -/
theorem C41_value_violated : parseQuery (serializeQuery [("a".toList, ["é".toList])] true) true = some [("a".toList, ["á".toList])] := by
  decide +kernel

/-! ### C42 -/

/-- **C42, part.** If the kind of host is the same, two hosts are equal exactly if all parts are the same. -/
theorem C42_partial (a b : HostInfo) (h : a.flags = b.flags) : a.eq b = true ↔ a = b := by
  unfold HostInfo.eq
  rw [if_neg (by simpa using h)]
  obtain ⟨f, m, s, t⟩ := a
  obtain ⟨f', m', s', t'⟩ := b
  simp only at h
  subst h
  simp only
  by_cases h1 : m = m' <;> by_cases h2 : s = s' <;> by_cases h3 : t = t' <;> simp_all

/-- **C42 is violated**: hosts of different kinds are always equal, whatever their names and addresses are. -/
theorem C42_kind_violated (a b : HostKind) (h : a.create.flags ≠ b.create.flags) : a.create.eq b.create = true := by
  unfold HostInfo.eq; rw [if_pos h]

example : (HostKind.localName "localhost".toList false).create.eq (HostKind.externalIpV4 "1.2.3.4".toList).create = true := by decide

/-- **C42 is violated**: equality of hosts is not transitive: any two different hosts of the same kind are equal to each host of another kind,
but not to each other. -/
theorem C42_transitive_violated (a b c : HostInfo) (h1 : a.flags = b.flags) (h2 : a ≠ b) (h3 : c.flags ≠ a.flags) :
    a.eq c = true ∧ c.eq b = true ∧ a.eq b = false := by
  refine ⟨by unfold HostInfo.eq; rw [if_pos (Ne.symm h3)], by unfold HostInfo.eq; rw [if_pos (by rw [← h1]; exact h3)], ?_⟩
  cases h : a.eq b with
  | false => rfl
  | true => exact absurd ((C42_partial a b h1).1 h) h2

end Verif.Url
