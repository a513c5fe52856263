import Verif.Weak.Copy
import Verif.Weak.Algebra
import Verif.Weak.ItemLemmas
import Verif.Weak.Props

/-!
# `WeakItemDictionary`, and copies
-/

namespace Verif.Weak

/-! ## C130, continued -/

/-- The references of every set which can be reached are as the theorems about the set operations want them. -/
theorem C130_reachable_sets (cls : Nat → Nat) (ops : List (Op Unit)) :
    IsSet cls (({} : Table Unit).run cls .set ops).1.live (({} : Table Unit).run cls .set ops).1.fresh
      ((({} : Table Unit).run cls .set ops).1.entries.map Prod.fst) := by
  obtain ⟨hI, hr⟩ := run_good cls .set ops (Inv.init (V := Unit))
  have ha := runs_apart hr List.Pairwise.nil
  generalize (({} : Table Unit).run cls .set ops).1 = t at *
  refine ⟨fun r hr => hI.bound r (List.mem_append_left _ hr), ?_, ?_⟩
  · refine List.Pairwise.imp_of_mem ?_ hI.nodup
    intro a b ha hb hne e
    exact hne (hI.uniq a (List.mem_append_left _ ha) b (List.mem_append_left _ hb) e)
  · have ha' : Apart cls (vw t.live t.entries) := ha
    generalize t.entries = es at ha'
    induction es with
    | nil => exact List.Pairwise.nil
    | cons e es ih =>
      rw [List.map_cons, List.pairwise_cons]
      by_cases hl : t.live e.1.target = true
      · rw [vw_cons_live _ hl] at ha'
        have h2 := List.pairwise_cons.1 ha'
        refine ⟨fun r hr _ hlr => ?_, ih h2.2⟩
        obtain ⟨x, hx, rfl⟩ := List.mem_map.1 hr
        exact h2.1 (x.1.target, x.2) (List.mem_filterMap.2 ⟨x, hx, by rw [if_pos hlr]⟩)
      · rw [vw_cons_dead _ (by simpa using hl)] at ha'
        exact ⟨fun r hr hle => absurd hle hl, ih ha'⟩

/-! ## C133 -/

/--
If different keys are never equal, nothing dies while somebody iterates and nothing is copied, two dictionaries do
exactly what two plain ones do which lose an item the moment its key or its value dies.
-/
theorem C133_item_dictionaries_partial (cls : Nat → Nat) (hc : ∀ a b, cls a = cls b → a = b) (ops : List WOp)
    (hq : WAllQuiet cls {} ops) :
    (({} : World).run cls ops).1.pair = (({} : Pair).run cls ops).1 ∧
      (({} : World).run cls ops).2 = (({} : Pair).run cls ops).2 :=
  (wrun_good hc ops WGood.init hq).2

/-- And `len` is right. -/
theorem C133_length_partial (cls : Nat → Nat) (hc : ∀ a b, cls a = cls b → a = b) (ops : List WOp)
    (hq : WAllQuiet cls {} ops) :
    (({} : World).run cls ops).1.one.len = ((({} : Pair).run cls ops).1.one.length : Int) := by
  obtain ⟨a, b, _⟩ := wrun_good hc ops WGood.init hq
  have h : (({} : World).run cls ops).1.pair.one = (({} : Pair).run cls ops).1.one := by rw [b]; rfl
  rw [a.one.len, ← h]
  rfl

/--
A value dies while somebody iterates, then the key gets a new value: when the iteration ends the **new** value is
removed, although its key and it are alive.
-/
theorem C133_a_living_item_is_lost_violated :
    ∃ ops : List WOp, (({} : World).run id ops).1.pair.one = [] ∧ (({} : Pair).run id ops).1.one = [(0, 2)] :=
  ⟨[.on false (.put 0 1), .on false .enter, .die 1, .on false (.put 0 2), .on false (.leave keepOrder)],
    by decide +kernel⟩

/--
Two different equal keys: the item is created with the first one and gets its value with the second one. When the
second one and then the value die, nothing is removed. The length is wrong, and `get` with a default raises.
-/
theorem C133_equal_keys_violated :
    ∃ (ops : List WOp), (({} : Pair).run (· % 10) ops).1.one = [] ∧ (({} : World).run (· % 10) ops).1.one.len = 1 ∧
      ((({} : World).run (· % 10) ops).1.step (· % 10) (.on false (.get 0))).2 = .keyError :=
  ⟨[.on false (.put 0 1), .on false (.put 10 2), .die 10, .die 2], by decide +kernel⟩

example : (({} : World).run id
    [.on false (.put 0 1), .on false (.put 2 1), .on true (.put 0 3), .die 1, .on false (.get 0), .on true (.look 0),
      .on false .enter, .on false (.put 0 3), .on false (.leave keepOrder), .on false (.get 0)]).2 =
    [.unit, .unit, .unit, .unit, .value none, .value (some 3), .unit, .unit, .unit, .value (some 3)] := by decide +kernel
example : WAllQuiet id {} [.on false (.put 0 1), .on false .enter, .on false (.leave keepOrder), .die 1] := by
  simp [WAllQuiet, WQuiet, World.step, World.dict, World.set, IDict.step, IDict.commit, World.live, IDict.put, keepOrder]

/-! ## C134 -/

variable {V : Type}

/--
A copy of a weak set, map or key dictionary starts with the same living items, and from then on it does what a plain
dictionary does, whatever happens to the original: what dies is removed from it by its own callbacks.
-/
theorem C134_copies_of_keyed_containers (cls : Nat → Nat) (kind : Kind) (ops later : List (Op V)) :
    Plain.Runs cls kind (({} : Table V).run cls kind ops).1.plain later
      (((({} : Table V).run cls kind ops).1.copy cls).run cls kind later).1.plain
      (((({} : Table V).run cls kind ops).1.copy cls).run cls kind later).2 := by
  obtain ⟨_, hr⟩ := run_good cls kind ops (Inv.init (V := V))
  have ha := runs_apart hr List.Pairwise.nil
  obtain ⟨a, _, c, _⟩ := copy_good (cls := cls) (t := (({} : Table V).run cls kind ops).1) ha
  have := (run_good cls kind later a).2
  rw [c] at this
  exact this

/-- Its length is that of the living items, also if the original still holds dead ones. -/
theorem C134_length_of_a_copy (cls : Nat → Nat) (kind : Kind) (ops : List (Op V)) :
    ((({} : Table V).run cls kind ops).1.copy cls).len = (({} : Table V).run cls kind ops).1.view.length := by
  obtain ⟨_, hr⟩ := run_good cls kind ops (Inv.init (V := V))
  have ha := runs_apart hr List.Pairwise.nil
  obtain ⟨a, b, c, _⟩ := copy_good (cls := cls) (t := (({} : Table V).run cls kind ops).1) ha
  rw [b.len a]
  have h : ((({} : Table V).run cls kind ops).1.copy cls).plain.items = (({} : Table V).run cls kind ops).1.plain.items := by
    rw [c]
  exact congrArg (fun l : List (Nat × V) => (l.length : Int)) h

/--
A weak item dictionary is copied, then the key gets another value in the original. When the old value dies, which only
the copy still holds, the item is removed from the **original**, although its key and value live.
-/
theorem C134_copy_of_an_item_dictionary_violated :
    ∃ ops : List WOp, (({} : World).run id ops).1.pair.one = [] ∧ (({} : Pair).run id ops).1.one = [(0, 2)] :=
  ⟨[.on false (.put 0 1), .copy, .on false (.put 0 2), .die 1], by decide +kernel⟩

/-- And the copy keeps the dead item: its length is wrong and `get` with a default raises. -/
theorem C134_a_copy_keeps_the_dead_violated :
    ∃ ops : List WOp, (({} : Pair).run id ops).1.two = [] ∧ (({} : World).run id ops).1.two.len = 1 ∧
      ((({} : World).run id ops).1.step id (.on true (.get 0))).2 = .keyError :=
  ⟨[.on false (.put 0 1), .copy, .die 1], by decide +kernel⟩

example : ((({} : Table Nat).run id .keys [.put 0 0, .put 1 1, .enter, .die 0]).1.copy id).entries =
    [(⟨2, 1⟩, 1)] := by decide +kernel

end Verif.Weak
