/-
Model of how the loss of the pipes of a process is told, and of when the process counts as
lost.

Source: `/repo/scarletio/core/subprocess/subprocess_protocols.py`, and of
`/repo/scarletio/core/subprocess/subprocess.py` `_try_finish`, `_pipe_connection_lost` and
`_pipe_data_received`.

The process is connected (`_pending_calls` is `None`); for what is done before see
`Verif/Process`. What the readers do with the data is there as well.
-/

namespace Verif.Finishing

/-- The state of a process and of the protocols of its pipes `0` (stdin), `1` (stdout) and `2`
(stderr). `has` is whether there is such a pipe; `proc` whether its protocol still has its
`_process`; `disc` its `_disconnected`. `code` is whether `return_code` is known, `lost` is
`_connection_lost`. `told` and `got` are the calls of `_pipe_connection_lost` and
`_pipe_data_received`, `raised` how many of the events raised. -/
structure S where
  has : Fin 3 → Bool
  proc : Fin 3 → Bool
  disc : Fin 3 → Bool
  code : Bool
  lost : Bool
  told : List (Fin 3)
  got : List (Fin 3 × Nat)
  raised : Nat

/-- `SubprocessWritePipeProtocol.__new__` (`subprocess_protocols.py:25-41`), `AsyncProcess.__new__`
(`subprocess.py:181-234`). -/
def S.new (has : Fin 3 → Bool) : S := ⟨has, fun _ => true, fun _ => false, false, false, [], [], 0⟩

/-- One of the three checks of `_try_finish` (`subprocess.py:656-666`): whether it returns. -/
def S.leaves (s : S) (fd : Fin 3) : Bool := !s.has fd || s.disc fd

/-- `_try_finish` (`subprocess.py:648-672`) and `_do_connection_lost` (`879-904`) of it. That
the one who waits for draining is woken up is in `Verif/Process`. -/
def S.tryFinish (s : S) : S :=
  if !s.code then s
  else if s.leaves 0 then s
  else if s.leaves 1 then s
  else if s.leaves 2 then s
  else { s with lost := true }

inductive Op where
  /-- `_process_exited` (`subprocess.py:562-573`) gets to know the code. -/
  | exited
  /-- `connection_lost` of the protocol of a pipe. `fails` is whether
  `_do_pipe_connection_lost` raises, as it does if someone waits for draining (C189). -/
  | lost (fd : Fin 3) (fails : Bool)
  /-- `data_received` of the protocol of a pipe. -/
  | data (fd : Fin 3) (d : Nat)
deriving DecidableEq, Repr

/-- `_do_pipe_connection_lost` (`subprocess.py:441-491`), as far as it is about `_connection_lost`:
of stdin `_do_connection_lost` is called, which sets it first. -/
def S.doLost (s : S) (fd : Fin 3) : S := if fd = 0 then { s with lost := true } else s

/-- One event: `exited` (`subprocess.py:571-573`); `connection_lost`
(`subprocess_protocols.py:55-60`) with `_pipe_connection_lost` (`subprocess.py:403-438`);
`data_received` (`subprocess_protocols.py:96-97`) with `_pipe_data_received`
(`subprocess.py:494-524`). `AttributeError` is raised if `_process` is `None`. The protocol of
stdin does nothing with data, for it has the `data_received` of its base. -/
def step (s : S) : Op → S
  | .exited => S.tryFinish { s with code := true }
  | .lost fd fails =>
    if !s.has fd then s
    else if !s.proc fd then s
    else
      let s := { s with proc := fun k => if k = fd then false else s.proc k, told := s.told ++ [fd] }
      let s := s.doLost fd
      if fails then { s with raised := s.raised + 1 }
      else
        let s := s.tryFinish
        { s with disc := fun k => if k = fd then true else s.disc k }
  | .data fd d =>
    if !s.has fd then s
    else if fd = 0 then s
    else if s.proc fd then { s with got := s.got ++ [(fd, d)] }
    else { s with raised := s.raised + 1 }

def run (s : S) (l : List Op) : S := l.foldl step s

end Verif.Finishing
