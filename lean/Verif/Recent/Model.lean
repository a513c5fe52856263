/-!
# Inputs of the console which are kept

Modelled code: `scarletio/utils/trace/expression_parsing/console_input.py`, `FileInfo.is_up_to_date` of console inputs
(`file_info.py`, 109–114), `cache_constants.py`.

The limit and the period of the check are parameters (1000000 and 17 in the code). Inputs are named and have a size and a
number, which tells them apart.
-/

namespace Verif.Recent

/-- An input (`FileInfo`). -/
structure Input where
  name : Nat
  size : Nat
  id : Nat
  deriving DecidableEq

/-- Setting of an item of an `OrderedDict`, oldest first: one which is there keeps its position. -/
def put (e : Input) : List Input → List Input
  | [] => [e]
  | x :: l => if x.name = e.name then e :: l else x :: put e l

/-- The loop of `check_console_cache_overflow` (47–55) over the inputs from the last one: the names to delete. -/
def toDelete (max : Nat) : Nat → List Input → List Nat
  | _, [] => []
  | total, e :: l =>
    if total + e.size < max then toDelete max (total + e.size) l else e.name :: toDelete max (total + e.size) l

/-- `del` of an item. -/
def del (n : Nat) (l : List Input) : List Input := l.filter fun e => e.name ≠ n

/-- `check_console_cache_overflow` (40–60). -/
def check (max : Nat) (l : List Input) : List Input := (toDelete max 0 l.reverse).foldl (fun l n => del n l) l

/-- `add_console_input` (11–37) of a name and a content which are not empty. -/
def add (max period : Nat) (l : List Input) (e : Input) : List Input :=
  let l := put e l
  if l.length % period = 0 then check max l else l

/-- `is_up_to_date` of a console input (109–114): `move_to_end`, or it is put back. -/
def use (l : List Input) (e : Input) : List Input :=
  match l.find? fun x => x.name = e.name with
  | some x => del e.name l ++ [x]
  | none => put e l

/-- What happens. -/
inductive Op
  | add (e : Input)
  | use (e : Input)

/-- One step. -/
def step (max period : Nat) (l : List Input) : Op → List Input
  | .add e => add max period l e
  | .use e => use l e

/-- Many steps. -/
def run (max period : Nat) (l : List Input) (ops : List Op) : List Input := ops.foldl (step max period) l

end Verif.Recent
