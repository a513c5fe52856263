import Verif.Future.Model
/-! A future as users see it: a cell that is written once. -/
namespace Verif.Future
variable {α ε : Type}

inductive Outcome (α ε : Type) where
  | result (v : α)
  | exception (e : ε)
  | cancelled
  | cancelledWith (e : ε)
deriving DecidableEq, Repr

/-- The write-once cell: what each call does to the outcome and answers. -/
def cellStep (o : Option (Outcome α ε)) : Op α ε → Option (Outcome α ε) × Out α ε
  | .cancel => match o with | none => (some .cancelled, .int 1) | some o => (some o, .int 0)
  | .cancelWith e =>
    match o, e with
    | none, .exc e => (some (.cancelledWith e), .int 1)
    | none, .stopIteration => (none, .typeError)
    | some o, _ => (some o, .int 0)
  | .setResult v => match o with | none => (some (.result v), .unit) | some o => (some o, .invalidState)
  | .setResultIfPending v => match o with | none => (some (.result v), .int 1) | some o => (some o, .int 0)
  | .setException e =>
    match o, e with
    | none, .exc e => (some (.exception e), .unit)
    | none, .stopIteration => (none, .typeError)
    | some o, _ => (some o, .invalidState)
  | .setExceptionIfPending e =>
    match o, e with
    | none, .exc e => (some (.exception e), .int 1)
    | none, .stopIteration => (none, .typeError)
    | some o, _ => (some o, .int 0)
  | .getResult =>
    (o, match o with
      | none => .invalidState
      | some (.result v) => .returned v
      | some (.exception e) => .raised e
      | some .cancelled => .raisedCancelled
      | some (.cancelledWith e) => .raised e)
  | .getException =>
    (o, match o with
      | none => .invalidState
      | some (.result _) => .noException
      | some (.exception e) => .exception e
      | some .cancelled => .cancelledError
      | some (.cancelledWith e) => .exception e)
  | .getCancellationException =>
    (o, match o with
      | some .cancelled => .cancelledError
      | some (.cancelledWith e) => .exception e
      | _ => .noException)
  | .isDone => (o, .bool o.isSome)
  | .isPending => (o, .bool o.isNone)
  | .isCancelled =>
    (o, .bool (match o with | some .cancelled => true | some (.cancelledWith _) => true | _ => false))
  | .silence => (o, .unit)
  | .addDoneCallback _ => (o, .unit)
  | .removeDoneCallback _ => (o, .unit)
  | .setRunning _ => (o, .unit)

/-- Answers of calls about callbacks are not the business of the cell. -/
def Op.isRemove : Op α ε → Bool
  | .removeDoneCallback _ => true
  | _ => false

def cellRun (o : Option (Outcome α ε)) : List (Op α ε) → Option (Outcome α ε) × List (Out α ε)
  | [] => (o, [])
  | op :: ops =>
    let r := cellStep o op
    let rs := cellRun r.1 ops
    (rs.1, r.2 :: rs.2)

/-- How often a callback was registered in a history. -/
def added (c : Nat) : List (Op α ε) → Nat
  | [] => 0
  | .addDoneCallback c' :: ops => (if c' = c then 1 else 0) + added c ops
  | _ :: ops => added c ops

/-- How many registrations of a callback the removals of a history reported as dropped. -/
def reportedRemoved (c : Nat) : List (Op α ε) → List (Out α ε) → Nat
  | .removeDoneCallback c' :: ops, .int n :: outs => (if c' = c then n else 0) + reportedRemoved c ops outs
  | _ :: ops, _ :: outs => reportedRemoved c ops outs
  | _, _ => 0

end Verif.Future
