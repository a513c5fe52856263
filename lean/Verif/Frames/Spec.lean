import Verif.Frames.Model
/-! What the groups have to be. -/
namespace Verif.Frames.Spec

/-- From `start` on there are `times` rounds of `size` keys each: every round is like the first. -/
structure Repeats (keys : List Nat) (start size times : Nat) : Prop where
  pos : 0 < size
  fits : start + size * times ≤ keys.length
  same : ∀ round, round < times → ∀ i, i < size → keys[start + size * round + i]? = keys[start + i]?

/-- A repeat worth to be shown: at least two frames are saved. -/
def Worth (keys : List Nat) (start size times : Nat) : Prop := Repeats keys start size times ∧ 2 ≤ (times - 1) * size

/-- No repeat is worth to be shown. -/
def NoRepeat (keys : List Nat) : Prop := ∀ start size times, ¬ Worth keys start size times

/-- The groups show the frames: a group of count 1 consists of the frames themselves; of a repeated one the first round consists of the frames
themselves, and the other rounds have the same keys. -/
inductive Shows : List Group → List Frame → Prop
  | nil : Shows [] []
  | single {frames : List Frame} {kind : Kind} {gs : List Group} {rest : List Frame} (h : Shows gs rest) : Shows (⟨frames, 1, kind⟩ :: gs) (frames ++ rest)
  | many {frames : List Frame} {count : Nat} {kind : Kind} {gs : List Group} {part rest : List Frame} (h : Shows gs rest) (hc : 2 ≤ count)
      (hk : part.map Frame.key = ((List.replicate count frames).flatten).map Frame.key) (hf : frames <+: part) : Shows (⟨frames, count, kind⟩ :: gs) (part ++ rest)

/-- What a group of the result may be. -/
inductive Valid : Group → Prop
  | singles (frames : List Frame) (h : frames ≠ []) : Valid ⟨frames, 1, .singles⟩
  | many (frames : List Frame) (count : Nat) (h : frames ≠ []) (hc : 2 ≤ count) (hw : 2 ≤ (count - 1) * frames.length) : Valid ⟨frames, count, .repeated⟩

/-- No two groups of singles follow each other. -/
def Apart : List Group → Prop
  | [] => True
  | [_] => True
  | g :: h :: gs => ¬ (g.count = 1 ∧ h.count = 1) ∧ Apart (h :: gs)

end Verif.Frames.Spec
