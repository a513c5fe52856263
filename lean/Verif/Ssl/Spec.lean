import Verif.Ssl.Life
import Verif.Ssl.Out
import Verif.Ssl.Conf

/-! Independent vocabulary for the ssl layer. -/

namespace Verif.Ssl

variable {E : Engine}

/-- Somebody who writes politely: not before the connection is made, and not while `is_closing()` is true. And the
connection is made once. `m` tells whether it was made. -/
def Polite (c : Cfg) : Bool → St E → List Op → Prop
  | _, _, [] => True
  | m, s, op :: ops =>
    (match op with
      | .write _ => m = true ∧ s.closing = false
      | .made => m = false
      | _ => True) ∧
    Polite c (m || op == .made) (step c s op).1 ops

/-- A calm underlying transport: the connection is made once; data and eof come only after the event loop has run the
callback `connection_made` has scheduled, and only as long as the transport is not closing. -/
def Calm (c : Cfg) : Bool → Bool → St E → List Op → Prop
  | _, _, _, [] => True
  | m, t, s, op :: ops =>
    (match op with
      | .made => m = false
      | .data _ => t = true ∧ s.trClosing = false
      | .eof => t = true ∧ s.trClosing = false
      | _ => True) ∧
    Calm c (m || op == .made) (t || (m && op == .tick)) (step c s op).1 ops

/-- Everything that was written. -/
def written : List Op → Bytes
  | [] => []
  | .write b :: ops => b ++ written ops
  | _ :: ops => written ops

/-- How the underlying transport told of the loss of the connection. -/
def losses : List Op → List (Option Err)
  | [] => []
  | .lost e :: ops => e :: losses ops
  | _ :: ops => losses ops

/-- An engine that takes every write at once. -/
def Willing (E : Engine) : Prop := ∀ g b, ∃ g', E.write g b = (g', .ok b.length)

/-- An entry of data, not a mark. -/
def DataEntry (e : Bytes × Nat) : Prop := e.1 ≠ [] ∧ e.2 < e.1.length

theorem hung_run (c : Cfg) (ops : List Op) : ∀ s : St E, s.hung = true → run c s ops = s := by
  induction ops with
  | nil => intro s _; rfl
  | cons op ops ih =>
    intro s h
    unfold run step
    rw [if_pos h]
    exact ih s h

end Verif.Ssl
