import Verif.Marks.Model

/-!
# Marks under lines of syntax errors: properties
-/

namespace Verif.Marks

/-- Whether a position is under a mark. -/
def Marked (s : Shown) (i : Nat) : Prop := s.start ≤ i ∧ (i : Int) < s.start + s.length

/-- How many characters are left out at the start of a line. -/
inductive Cut : List Nat → Nat → Prop
  | skip (c : Nat) (l : List Nat) (k : Nat) : c ∈ [32, 10, 9, 12] → Cut l k → Cut (c :: l) (k + 1)
  | stop (c : Nat) (l : List Nat) : c ∉ [32, 10, 9, 12] → Cut (c :: l) 0
  | empty : Cut [] 0

theorem cut_leading : ∀ l, Cut l (leading l)
  | [] => .empty
  | c :: l => by
    rw [leading]
    split
    · rename_i h
      exact .skip c l _ (by simpa using h) (cut_leading l)
    · rename_i h
      exact .stop c l (by simpa using h)

theorem cut_unique {l : List Nat} {k k' : Nat} (h : Cut l k) (h' : Cut l k') : k = k' := by
  induction h generalizing k' with
  | skip c l k hc _ ih =>
    cases h' with
    | skip _ _ k' _ h' => rw [ih h']
    | stop _ _ hc' => exact absurd hc hc'
  | stop c l hc =>
    cases h' with
    | skip _ _ _ hc' _ => exact absurd hc' hc
    | stop _ _ _ => rfl
  | empty => cases h'; rfl

theorem rstrip_prefix (space : Nat → Bool) (l : List Nat) : ∃ t, l = rstrip space l ++ t ∧ ∀ c ∈ t, space c = true := by
  refine ⟨(l.reverse.takeWhile space).reverse, ?_, ?_⟩
  · rw [rstrip, ← List.reverse_append, List.takeWhile_append_dropWhile, List.reverse_reverse]
  · intro c hc
    have := List.mem_reverse.1 hc
    exact List.all_takeWhile (p := space) (l := l.reverse) |> List.all_eq_true.1 |> fun h => h c this

theorem floor_le (x : Int) (i : Nat) : floor x ≤ i ↔ x ≤ i := by
  unfold floor; split <;> omega

theorem lt_floor (x : Int) (i : Nat) : (i : Int) < floor x ↔ (i : Int) < x := by
  unfold floor; split <;> omega

/-- C397: The line is shown without white space around, and exactly those characters are marked which the error told of,
where an error which does not tell its end is one character long. -/
theorem C397_marked (space : Nat → Bool) (d : Details) (l : List Nat) (hl : d.line = some l) (k : Nat)
    (hk : Cut (rstrip space l) k) (i : Nat) :
    (shown space d).line = (rstrip space l).drop k ∧ (shown space d).index = d.number - 1 ∧
      (Marked (shown space d) i ↔
        d.offset - 1 ≤ (i : Int) + k ∧ (i : Int) + k < (match d.last with | some e => e.2 - 1 | none => d.offset)) := by
  have hk' := cut_unique hk (cut_leading _)
  subst hk'
  have hstop : d.stop = (match d.last with | some e => e.2 - 1 | none => d.offset) := by
    rw [Details.stop]
    cases d.last with
    | none => dsimp only; omega
    | some e => rfl
  rw [shown, hl, ← hstop]
  dsimp only
  generalize d.stop = stop
  generalize leading (rstrip space l) = k
  have f1 := floor_le (d.offset - 1 - k) i
  have f2 := lt_floor (stop - k) i
  generalize floor (d.offset - 1 - k) = a at *
  generalize floor (stop - k) = b at *
  split
  · refine ⟨rfl, rfl, ?_⟩
    rw [Marked]
    dsimp only
    omega
  · refine ⟨rfl, rfl, ?_⟩
    rw [Marked]
    dsimp only
    omega

/-- C397: A character shown is the one of the line as many positions behind as were left out; only white space is left out. -/
theorem C397_same (space : Nat → Bool) (d : Details) (l : List Nat) (hl : d.line = some l) (k : Nat)
    (hk : Cut (rstrip space l) k) (i : Nat) (hi : i < (shown space d).line.length) :
    (shown space d).line[i]? = l[i + k]? := by
  obtain ⟨h1, -, -⟩ := C397_marked space d l hl k hk 0
  rw [h1] at hi ⊢
  obtain ⟨t, ht, -⟩ := rstrip_prefix space l
  rw [List.length_drop] at hi
  rw [List.getElem?_drop]
  conv => rhs; rw [ht]
  rw [List.getElem?_append_left (by omega), Nat.add_comm]

/-- C397: Without the line nothing is shown and nothing is marked. -/
theorem C397_nothing (space : Nat → Bool) (d : Details) (hl : d.line = none) (i : Nat) :
    (shown space d).line = [] ∧ ¬ Marked (shown space d) i := by
  rw [shown, hl]
  refine ⟨rfl, ?_⟩
  rw [Marked]
  dsimp only
  omega

/-- C398: If the error ends before the white space at the end of its line, only characters of the line shown are marked.
Missing: every other error. -/
theorem C398_inside_partial (space : Nat → Bool) (d : Details) (l : List Nat) (hl : d.line = some l) (e : Int × Int)
    (he : d.last = some e) (hin : e.2 - 1 ≤ (rstrip space l).length) (i : Nat) (hm : Marked (shown space d) i) :
    i < (shown space d).line.length := by
  obtain ⟨h1, -, h3⟩ := C397_marked space d l hl _ (cut_leading _) i
  rw [h3, he] at hm
  dsimp only at hm
  rw [h1, List.length_drop]
  omega

/-- C398: An error which ends in a later line is marked as if it ended in the first one: here `(a` with the end at the column
6 of the next line marks positions behind the line, though the error told them of another one. -/
theorem C398_later_violated (number : Int) :
    let d : Details := ⟨some [40, 97], number, 1, some (number + 1, 6)⟩
    Marked (shown (fun c => c = 32) d) 4 ∧ (shown (fun c => c = 32) d).line.length = 2 := by
  refine ⟨?_, rfl⟩
  simp [Marked, shown, Details.stop, rstrip, leading, floor]

/-- C398: And if the end there is not behind the start, nothing is marked at all. -/
theorem C398_unmarked_violated (number : Int) (i : Nat) :
    let d : Details := ⟨some [97, 98, 99, 40], number, 4, some (number + 1, 2)⟩
    ¬ Marked (shown (fun c => c = 32) d) i := by
  simp [Marked, shown, Details.stop, rstrip, leading, floor]

example : shown (fun c => c = 32) ⟨some [32, 32, 97, 98, 32], 7, 4, none⟩ = ⟨[97, 98], 6, 1, 1⟩ := by decide

end Verif.Marks
