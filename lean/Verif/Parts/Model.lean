/-!
# Parts of urls

Modelled code: `scarletio/web_common/url/url_part_base.py`, `url_part_base_parsed.py`, `url_user_info.py`.

Texts are any type; encoding, decoding, parsing and serializing are parameters (quoting itself is in the area `Quoting`).
-/

namespace Verif.Parts

/-- `URLPartBase`: `_decoded`, `_encoded` and the two bits of `_flags`; `none`: `None`. -/
structure Part (α : Type) where
  decoded : Option α
  encoded : Option α
  decodedSet : Bool
  encodedSet : Bool

variable {α : Type}

/-- `create_from_decoded` (101–119 of url_part_base.py). -/
def Part.ofDecoded (x : Option α) : Part α := ⟨x, none, true, false⟩

/-- `create_from_encoded` (122–140). -/
def Part.ofEncoded (x : Option α) : Part α := ⟨none, x, false, true⟩

/-- The property `decoded` (143–170). -/
def Part.getDecoded (dec : Option α → Option α) (p : Part α) : Part α × Option α :=
  if p.decodedSet then (p, p.decoded)
  else
    let d := if p.encodedSet then dec p.encoded else none
    ({ p with decoded := d, decodedSet := true }, d)

/-- The property `encoded` (173–193): the flags read before `decoded` is got are written back. -/
def Part.getEncoded (enc dec : Option α → Option α) (p : Part α) : Part α × Option α :=
  if p.encodedSet then (p, p.encoded)
  else
    let (q, d) := p.getDecoded dec
    let e := enc d
    ({ q with encoded := e, decodedSet := p.decodedSet, encodedSet := true }, e)

/-- What is read. -/
inductive Read
  | decoded
  | encoded

/-- One read. -/
def Part.read (enc dec : Option α → Option α) (p : Part α) : Read → Part α × Option α
  | .decoded => p.getDecoded dec
  | .encoded => p.getEncoded enc dec

/-- Many reads. -/
def Part.reads (enc dec : Option α → Option α) (p : Part α) : List Read → Part α
  | [] => p
  | r :: rs => Part.reads enc dec (p.read enc dec r).1 rs

/-- `__eq__` of two parts of the same type (55–64). -/
def Part.eq [DecidableEq α] (dec : Option α → Option α) (p q : Part α) : Bool :=
  decide ((p.getDecoded dec).2 = (q.getDecoded dec).2)

/-- `URLPartBaseParsed`: with the parsed value. -/
structure Parsed (α β : Type) where
  part : Part α
  parsed : β

variable {β : Type}

/-- `create_from_parsed` (127–148 of url_part_base_parsed.py). -/
def Parsed.ofParsed (x : β) : Parsed α β := ⟨⟨none, none, false, false⟩, x⟩

/-- `create_from_decoded`, `create_from_encoded` (101–124). -/
def Parsed.ofText (parse : Option α → Bool → β) (x : Option α) (isEncoded : Bool) : Parsed α β :=
  ⟨⟨none, none, false, false⟩, parse x isEncoded⟩

/-- The properties `decoded` and `encoded` (150–182). -/
def Parsed.read (serialize : β → Bool → Option α) (p : Parsed α β) : Read → Parsed α β × Option α
  | .decoded =>
    if p.part.decodedSet then (p, p.part.decoded)
    else
      let d := serialize p.parsed false
      ({ p with part := { p.part with decoded := d, decodedSet := true } }, d)
  | .encoded =>
    if p.part.encodedSet then (p, p.part.encoded)
    else
      let e := serialize p.parsed true
      ({ p with part := { p.part with encoded := e, encodedSet := true } }, e)

/-- Many reads. -/
def Parsed.reads (serialize : β → Bool → Option α) (p : Parsed α β) : List Read → Parsed α β
  | [] => p
  | r :: rs => Parsed.reads serialize (p.read serialize r).1 rs

/-- `URLUserInfo`. -/
structure UserInfo (α : Type) where
  name : Option (Part α)
  password : Option (Part α)

/-- A part of a text which is there. -/
def Part.made : Bool → α → Part α
  | true, x => .ofEncoded (some x)
  | false, x => .ofDecoded (some x)

/-- `create_from_decoded`, `create_from_encoded` (84–147 of url_user_info.py). -/
def UserInfo.create (isEncoded : Bool) (name password : Option α) : UserInfo α :=
  ⟨name.map (Part.made isEncoded), password.map (Part.made isEncoded)⟩

/-- `!=` of two values, each a part or `None`. -/
def differ [DecidableEq α] (dec : Option α → Option α) : Option (Part α) → Option (Part α) → Bool
  | none, none => false
  | some p, some q => !Part.eq dec p q
  | _, _ => true

/-- `__eq__` (68–81). -/
def UserInfo.eq [DecidableEq α] (dec : Option α → Option α) (a b : UserInfo α) : Bool :=
  if differ dec a.name b.name then false
  else if differ dec a.password b.password then false
  else true

end Verif.Parts
