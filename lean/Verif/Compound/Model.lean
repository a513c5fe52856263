/-!
# Building of compound types

Modelled code: `scarletio/utils/compound_type.py`: the merging of the layers of a type for one attribute name
(`CompoundLayer.get_implementation_detail_of`, `ImplementationDetail`, the `_check_*` and `_maybe_transfer_*`
functions, `CompoundLogicUnit.try_get_base_implementation_for`, the loop of `build_type_structure`), what is made
of the merged attributes, and `separate_base_type_from_components`.

Names are merged independently of each other, so one name is modelled. Whether two methods have compatible
parameters (`CallableAnalyzer.__mod__`) is a parameter. The sources told in error messages are left out.
-/

namespace Verif.Compound

/-- The value of an attribute. -/
inductive Impl
  /-- `NotImplemented` -/
  | placeholder
  /-- A `FunctionType`. -/
  | method (n : Nat)
  /-- A property, or what has `__get__`, `__set__` and `__delete__`. -/
  | descriptor (n : Nat)
  /-- What has some of these three: class methods, static methods. -/
  | half (n : Nat)
  /-- Others; `None` too. -/
  | constant (n : Nat)
  deriving DecidableEq

/-- What a layer has of the name. -/
inductive Entry
  | slot
  | theory (v : Impl)
  | implemented (v : Impl)
  deriving DecidableEq

/-- `ImplementationDetail` (786–829). -/
structure Detail where
  inst : Bool
  implemented : Bool
  value : Impl
  deriving DecidableEq

/-- `get_implementation_detail_of` (729–783); `done`: `layer.implemented`. `None`, the value of slots, is `constant 0`. -/
def detail (done : Bool) : Entry → Detail
  | .slot => ⟨true, done, .constant 0⟩
  | .theory v => ⟨false, false, v⟩
  | .implemented v => ⟨false, true, v⟩

/-- `is_get_descriptor` (863–889). -/
def Detail.isGet (d : Detail) : Bool :=
  d.inst || match d.value with
    | .descriptor _ => true
    | _ => false

/-- `is_method` (892–907). -/
def Detail.isMethod (d : Detail) : Bool :=
  !d.inst && match d.value with
    | .method _ => true
    | _ => false

/-- `is_constant` (910–938). -/
def Detail.isConstant (d : Detail) : Bool :=
  !d.inst && match d.value with
    | .constant _ => true
    | _ => false

/-- `is_implemented` (941–958). -/
def Detail.isImplemented (d : Detail) : Bool :=
  d.inst || (d.implemented && decide (d.value ≠ .placeholder))

/-- `_check_get_descriptor_match` (1136–1158), `_check_instance_attribute_overwritability` (1161–1184): whether these pass. -/
def checkGet (source added : Detail) : Bool :=
  source.isGet == added.isGet && !(source.inst && source.implemented && !added.inst)

/-- `_check_method_match` (1187–1223). -/
def checkMethod (agree : Nat → Nat → Bool) (source added : Detail) : Bool :=
  match source.isMethod, added.isMethod, source.value, added.value with
  | true, true, .method n, .method m => !(source.implemented && added.implemented) && agree n m
  | _, _, _, _ => true

/-- `_check_constant_match` (1226–1253). -/
def checkConstant (source added : Detail) : Bool :=
  if source.isConstant ∧ added.isConstant ∧ source.implemented ∧ added.implemented then decide (source.value = added.value)
  else true

/-- `_maybe_transfer_method_implementation` (1278–1299), on the first. -/
def transferMethod (source added : Detail) : Detail :=
  if source.isMethod ∧ added.isMethod ∧ source.implemented ≠ added.implemented then
    if source.implemented then source else { source with value := added.value, implemented := true }
  else source

/-- `_maybe_transfer_implementation` (1302–1322), on the first. -/
def transfer (source added : Detail) : Detail :=
  if source.implemented ∧ source.value = .placeholder then
    { source with implemented := added.implemented, value := added.value, inst := added.inst }
  else source

/-- `apply_layer_implementation` (961–988); `none`: `TypeError`. -/
def apply (agree : Nat → Nat → Bool) (source added : Detail) : Option Detail :=
  if !checkGet source added then none
  else if !checkMethod agree source added then none
  else if !checkConstant source added then none
  else some (transfer (transferMethod source added) added)

/-- `_maybe_transfer_instance_attribute_implementation` (1256–1275), on the second. -/
def transferSlot (source added : Detail) : Detail :=
  if source.inst ∧ added.inst ∧ source.implemented ≠ added.implemented then { added with implemented := true } else added

/-- `_maybe_transfer_implementation`, on the second. -/
def transferBack (source added : Detail) : Detail :=
  if source.implemented ∧ source.value = .placeholder then added
  else if added.implemented ∧ added.value = .placeholder then
    { added with implemented := source.implemented, value := source.value, inst := source.inst }
  else added

/-- `try_get_base_implementation_for` (1086–1133): `none`: `TypeError`; `some none`: there is none. -/
def baseDetail (type base : Option Entry) : Option (Option Detail) :=
  match type, base with
  | none, none => some none
  | none, some b => some (some (detail true b))
  | some t, none => some (some (detail false t))
  | some t, some b =>
    let source := detail true b
    let added := detail false t
    if !checkGet source added then none
    else if !checkConstant source added then none
    else some (some (transferBack source (transferSlot source added)))

/-- The loop over the component layers (1427–1437), those which have the name. -/
def components (agree : Nat → Nat → Bool) : Option Detail → List Entry → Option (Option Detail)
  | d, [] => some d
  | none, e :: es => components agree (some (detail false e)) es
  | some d, e :: es =>
    match apply agree d (detail false e) with
    | none => none
    | some d => components agree (some d) es

/-- What an attribute becomes in the new type (1440–1475). -/
inductive Built
  /-- It is in `__slots__`. -/
  | slot
  /-- It is a slot of the base type. -/
  | inherited
  | attribute (v : Impl)
  deriving DecidableEq

/-- An attribute of the type which is built; `none`: `TypeError`. -/
def build (agree : Nat → Nat → Bool) (type base : Option Entry) (layers : List Entry) : Option Built :=
  match baseDetail type base with
  | none => none
  | some d =>
    match components agree d layers with
    | none => none
    | some none => none
    | some (some d) =>
      if !d.isImplemented then none
      else if d.inst then if d.implemented then some .inherited else some .slot
      else some (.attribute d.value)

/-- What is given as base type. -/
inductive Base
  /-- `object` or `Compound`. -/
  | root
  | component (n : Nat)
  | type (n : Nat)
  /-- No type at all. -/
  | other
  deriving DecidableEq

/-- `separate_base_type_from_components` (1325–1374); `none`: `TypeError`. -/
def separate (direct : Option Nat) : List Base → Option (Option Nat × List Nat)
  | [] => some (direct, [])
  | .root :: bs => separate direct bs
  | .component n :: bs =>
    match separate direct bs with
    | none => none
    | some (d, cs) => some (d, n :: cs)
  | .type n :: bs =>
    match direct with
    | none => separate (some n) bs
    | some _ => none
  | .other :: _ => none

end Verif.Compound
