/-
Model of virtual proxies of frames and exceptions, and of dropping of variables.

Source: `/repo/scarletio/utils/trace/frame_proxy/frame_proxy_virtual.py`,
`/repo/scarletio/utils/trace/frame_group.py` `drop_variables`, `copy`, `copy_without_variables`,
`/repo/scarletio/utils/trace/exception_proxy/exception_proxy_virtual.py` and `drop_variables` of
`exception_proxy_base.py`.

Dictionaries of variables and functions are numbers.
-/

namespace Verif.Frozen

/-- A proxy of a frame. `rest` is what is always kept: the code, the file, the line, the name and
the like. `virtual` is whether it is a `FrameProxyVirtual`. -/
structure Frame where
  virtual : Bool
  rest : Nat
  builtins : Option Nat
  globals : Option Nat
  locals : Option Nat
  tracing : Option Nat
deriving DecidableEq, Repr

/-- `has_variables` (`frame_proxy_virtual.py:133-143`, `frame_proxy_frame.py:82-83`,
`frame_proxy_traceback.py:82-83`). -/
def Frame.hasVariables (f : Frame) : Bool :=
  if f.virtual then f.builtins.isSome || f.globals.isSome || f.locals.isSome else true

/-- `a <= b` of booleans. -/
def le : Bool → Bool → Bool
  | true, false => false
  | _, _ => true

/-- `FrameProxyVirtual.__new__` (`frame_proxy_virtual.py:42-69`). -/
def Frame.freeze (f : Frame) (withVariables : Bool) : Frame :=
  if f.virtual && le f.hasVariables withVariables then f
  else
    { virtual := true, rest := f.rest
      builtins := if withVariables then f.builtins else none
      globals := if withVariables then f.globals else none
      locals := if withVariables then f.locals else none
      tracing := if withVariables then f.tracing else none }

/-- A `FrameGroup`; no frames are the empty list. -/
structure Group where
  frames : List Frame
  count : Nat
deriving DecidableEq, Repr

/-- `FrameGroup.has_variables` (`frame_group.py:274-288`). -/
def Group.hasVariables (g : Group) : Bool := g.frames.any Frame.hasVariables

/-- `drop_variables`, `copy_without_variables` (`frame_group.py:246-271`). -/
def Group.bare (g : Group) : Group := { g with frames := g.frames.map fun f => f.freeze false }

/-- A proxy of an exception: `virtual` is whether it is an `ExceptionProxyVirtual`. -/
structure Exc where
  virtual : Bool
  rep : Nat
  groups : List Group
deriving DecidableEq, Repr

/-- `has_variables` (`exception_proxy_base.py:163-175`). -/
def Exc.hasVariables (e : Exc) : Bool := e.groups.any Group.hasVariables

/-- `drop_variables` (`exception_proxy_base.py:155-160`). -/
def Exc.drop (e : Exc) : Exc := { e with groups := e.groups.map Group.bare }

/-- The objects by their identity. Groups are copied when a proxy is made, so every proxy has its
own. -/
abbrev Heap := List Exc

/-- `ExceptionProxyVirtual.__new__` (`exception_proxy_virtual.py:20-47`) of the object `i`: the heap then and
which object it gives. -/
def make (h : Heap) (i : Nat) (withVariables : Bool) : Heap × Nat :=
  match h[i]? with
  | none => (h, i)
  | some e =>
    if e.virtual && le e.hasVariables withVariables then (h, i)
    else
      let groups := if withVariables then e.groups else e.groups.map Group.bare
      (h ++ [{ virtual := true, rep := e.rep, groups := groups }], h.length)

/-- `drop_variables` of the object `i`. -/
def dropAt (h : Heap) (i : Nat) : Heap := h.modify i Exc.drop

end Verif.Frozen
