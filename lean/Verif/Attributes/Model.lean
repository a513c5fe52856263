/-!
# Extra infos of transports, cached properties and proxies

Modelled code: `scarletio/core/protocols_and_transports/extra_info.py` (all of it),
`scarletio/utils/properties.py` (`cached_property.__get__`, `__set__`) and
`scarletio/utils/type_proxies/proxy_base.py` (all but `__repr__`, `__hash__` and `__eq__`).

Simplified: the getter of a cached property does not use the cache itself. Proxies and the dictionaries with
their overwrites are numbered in the order of their creation; what attributes the proxied objects have is a
parameter.
-/

namespace Verif.Attributes

/-- `dict`. -/
abbrev Dict (K V : Type) := List (K × V)

/-- `d[key]`; `none`: `KeyError`. -/
def look {K V : Type} [DecidableEq K] : Dict K V → K → Option V
  | [], _ => none
  | (k, v) :: d, key => if k = key then some v else look d key

/-- `d[key] = value`. -/
def put {K V : Type} [DecidableEq K] : Dict K V → K → V → Dict K V
  | [], key, value => [(key, value)]
  | (k, v) :: d, key, value => if k = key then (k, value) :: d else (k, v) :: put d key value

/-- `del d[key]`. -/
def remove {K V : Type} [DecidableEq K] (d : Dict K V) (key : K) : Dict K V := d.filter fun e => e.1 ≠ key

/-! ## Extra infos -/

/-- The names of infos (extra_info.py 3–11), their alternatives (14–18) and others. -/
inductive Name
  | sslContext | sslObject | socket | peerCertification | cipher | compression | socketName | peerName | pipe
  | sock | peercert | sockname | peername
  | other (n : Nat)
  deriving DecidableEq

/-- `ALTERNATIVE_EXTRA_INFO_NAMES` (13–19). -/
def alternative : Name → Option Name
  | .sslContext => some .sslContext
  | .socket => some .sock
  | .peerCertification => some .peercert
  | .socketName => some .sockname
  | .peerName => some .peername
  | _ => none

/-- `None | dict<str, object>`; the objects are numbers, `none` is `None`. -/
abbrev Extra := Option (Dict Name (Option Nat))

/-- `get_extra_info` (21–51). -/
def getInfo (extra : Extra) (name : Name) (default : Option Nat) : Option Nat :=
  match extra with
  | none => none
  | some d =>
    match look d name with
    | some info => info
    | none =>
      match alternative name with
      | none => default
      | some name => (look d name).getD default

/-- `set_extra_info` (54–77). -/
def setInfo (extra : Extra) (name : Name) (value : Option Nat) : Extra :=
  match extra with
  | none => some (put [] name value)
  | some d => some (put d name value)

/-- `has_extra_info` (80–109). -/
def hasInfo (extra : Extra) (name : Name) : Bool :=
  match extra with
  | none => false
  | some d =>
    if (look d name).isSome then true
    else
      match alternative name with
      | none => false
      | some name => (look d name).isSome

/-- `get_has_extra_info` (112–154). -/
def getHas (extra : Extra) (name : Name) : Option Nat × Bool :=
  match extra with
  | none => (none, false)
  | some d =>
    match look d name with
    | some info => (info, true)
    | none =>
      match alternative name with
      | none => (none, false)
      | some name =>
        match look d name with
        | none => (none, false)
        | some info => (info, true)

/-! ## Cached properties -/

/-- A value; `...` is told apart. -/
inductive Value
  | ellipsis
  | object (n : Nat)
  deriving DecidableEq

/-- An instance with `_cache`, and how often the getters of its properties were called. -/
structure Instance where
  cache : Option (Dict Nat Value) := none
  calls : Nat → Nat := fun _ => 0

/-- What is done with an instance. -/
inductive Access
  | get (name : Nat)
  /-- Setting a property, whose `fset` gives `value`. -/
  | set (name : Nat) (value : Value)
  /-- Setting a property without `fset`. -/
  | refuse (name : Nat)
  /-- `instance._cache = None`, as done by the types which have cached properties. -/
  | clear

/-- `cached_property.__get__` (properties.py 301–315); `fget name i`: what the getter gives when called for the
`i`-th time. -/
def getCached (fget : Nat → Nat → Value) (o : Instance) (name : Nat) : Instance × Value :=
  let cache := o.cache.getD []
  match look cache name with
  | some (.object n) => ({ o with cache := some cache }, .object n)
  | _ =>
    let value := fget name (o.calls name)
    ({ cache := some (put cache name value), calls := fun m => if m = name then o.calls m + 1 else o.calls m }, value)

/-- `cached_property.__set__` (317–329). -/
def setCached (o : Instance) (name : Nat) (value : Value) : Instance :=
  { o with cache := some (put (o.cache.getD []) name value) }

/-- One access; what it gives. -/
def access (fget : Nat → Nat → Value) (o : Instance) : Access → Instance × Option Value
  | .get name => let (o, v) := getCached fget o name; (o, some v)
  | .set name value => (setCached o name value, none)
  | .refuse _ => (o, none)
  | .clear => ({ o with cache := none }, none)

/-- Many accesses. -/
def accesses (fget : Nat → Nat → Value) (o : Instance) (as : List Access) : Instance :=
  as.foldl (fun o a => (access fget o a).1) o

/-! ## Proxies -/

/-- `ProxyBase`; a dictionary is referred to by its number. -/
structure Proxy where
  overwrites : Option Nat
  proxied : Nat

/-- The proxies and dictionaries created so far. -/
structure World where
  proxies : Nat → Proxy := fun _ => ⟨none, 0⟩
  count : Nat := 0
  dicts : Nat → Dict Nat Nat := fun _ => []
  next : Nat := 0

/-- Changing at one number. -/
def upd {α : Type} (f : Nat → α) (i : Nat) (a : α) : Nat → α := fun j => if j = i then a else f j

/-- What is done with proxies. -/
inductive Op
  /-- `cls(object)` of what is no proxy. -/
  | new (object : Nat)
  /-- `cls(proxy)`. -/
  | again (i : Nat)
  | deep (i : Nat)
  | clean (i : Nat)
  | set (i : Nat) (name value : Nat)
  | del (i : Nat) (name : Nat)

/-- `object.__new__` and its attributes set. -/
def World.add (w : World) (p : Proxy) : World :=
  { w with proxies := upd w.proxies w.count p, count := w.count + 1 }

/-- `_copy_self_deep` (proxy_base.py 38–52). -/
def copyDeep (w : World) (i : Nat) : World :=
  match (w.proxies i).overwrites with
  | none => w.add ⟨none, (w.proxies i).proxied⟩
  | some d =>
    { w with dicts := upd w.dicts w.next (w.dicts d), next := w.next + 1 }.add ⟨some w.next, (w.proxies i).proxied⟩

/-- `_copy_self_clean` (55–66). -/
def copyClean (w : World) (i : Nat) : World := w.add ⟨none, (w.proxies i).proxied⟩

/-- `_set_overwrite` (69–85). -/
def setOverwrite (w : World) (i name value : Nat) : World :=
  match (w.proxies i).overwrites with
  | none =>
    { w with
      dicts := upd w.dicts w.next (put [] name value), next := w.next + 1,
      proxies := upd w.proxies i ⟨some w.next, (w.proxies i).proxied⟩ }
  | some d => { w with dicts := upd w.dicts d (put (w.dicts d) name value) }

/-- `_del_overwrite` (143–160). -/
def delOverwrite (w : World) (i name : Nat) : World :=
  match (w.proxies i).overwrites with
  | none => w
  | some d =>
    match look (w.dicts d) name with
    | none => w
    | some _ =>
      let left := remove (w.dicts d) name
      let w' := { w with dicts := upd w.dicts d left }
      if left = [] then { w' with proxies := upd w.proxies i ⟨none, (w.proxies i).proxied⟩ } else w'

/-- One operation; those on proxies which do not exist do nothing. -/
def step (w : World) : Op → World
  | .new object => w.add ⟨none, object⟩
  | .again i => if i < w.count then copyDeep w i else w
  | .deep i => if i < w.count then copyDeep w i else w
  | .clean i => if i < w.count then copyClean w i else w
  | .set i name value => if i < w.count then setOverwrite w i name value else w
  | .del i name => if i < w.count then delOverwrite w i name else w

/-- Many operations. -/
def run (w : World) (ops : List Op) : World := ops.foldl step w

/-- `_get_overwrite` (88–119). -/
def getOverwrite (w : World) (i name : Nat) : Bool × Option Nat :=
  match (w.proxies i).overwrites with
  | none => (false, none)
  | some d =>
    match look (w.dicts d) name with
    | none => (false, none)
    | some v => (true, some v)

/-- `_get_value` (122–140); `getattr`: that on the proxied objects, `none` being `AttributeError`. -/
def getValue (getattr : Nat → Nat → Option Nat) (w : World) (i name : Nat) : Option Nat :=
  match getOverwrite w i name with
  | (true, v) => v
  | (false, _) => getattr (w.proxies i).proxied name

end Verif.Attributes
