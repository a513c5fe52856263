/-!
# Header values that are lists: extensions, subprotocols, connections and upgrades

Model of `build_extensions`, `parse_extensions`, `parse_connections`, `build_subprotocols` and
`parse_upgrades` of `scarletio/web_common/header_building_and_parsing.py`.

* Text is `List Char`.  The functions move an index through the header; here the rest of the
  header behind the index is passed on instead.
* `ValueError` is `.error ()`.
* The loops get a number of rounds.  `none` is a loop that is still running when its rounds are
  used up; the entry points give one round more than the header has characters, and
  `Verif.Header.C79_ends` says that this is always enough.
-/

namespace Verif.Header

abbrev Text := List Char

/-- The characters of `_TOKEN_RP`, line 8. -/
def tokenChar (c : Char) : Bool :=
  c ∈ ['-', '!', '#', '$', '%', '&', '\'', '*', '+', '.', '^', '_', '`', '|', '~']
    || ('0'.toNat ≤ c.toNat && c.toNat ≤ '9'.toNat)
    || ('a'.toNat ≤ c.toNat && c.toNat ≤ 'z'.toNat)
    || ('A'.toNat ≤ c.toNat && c.toNat ≤ 'Z'.toNat)

/-- The characters of `_SPACE_RP`, line 10. -/
def space (c : Char) : Bool := c = '\t' || c = ' '

/-- The characters of `_LIST_START_RP`, line 9. -/
def listStart (c : Char) : Bool := c = '\t' || c = ' ' || c = ','

/-- `_TOKEN_RP.match(header_value, index)`: what is matched, and what is behind it. -/
def token (s : Text) : Option (Text × Text) :=
  if s.takeWhile tokenChar = [] then none
  else some (s.takeWhile tokenChar, s.dropWhile tokenChar)

/-- `_PROTOCOL_RP.match(header_value, index)`, line 11. -/
def protocol (s : Text) : Option (Text × Text) :=
  match token s with
  | none => none
  | some (name, '/' :: rest) =>
    match token rest with
    | none => some (name, '/' :: rest)
    | some (version, rest) => some (name ++ '/' :: version, rest)
  | some (name, rest) => some (name, rest)

abbrev Answer (α : Type) := Option (Except Unit α)

/-- The loop of `parse_connections`, lines 271-312, and of `parse_upgrades`, lines 357-397; the
functions differ in the expression that matches an element. -/
def names (element : Text → Option (Text × Text)) : Nat → Text → List Text → Answer (List Text)
  | 0, _, _ => none
  | rounds + 1, s, result =>
    match s.dropWhile listStart with
    | [] => some (.ok result)
    | c :: s =>
      match element (c :: s) with
      | none => some (.error ())
      | some (name, s) =>
        match s.dropWhile space with
        | [] => some (.ok (result ++ [name]))
        | ',' :: s => names element rounds s (result ++ [name])
        | _ :: _ => some (.error ())

/-- `parse_connections`, lines 248-312, and `parse_subprotocols`, line 331. -/
def parseConnections (s : Text) : Answer (List Text) := names token (s.length + 1) s []

/-- `parse_upgrades`, lines 334-397. -/
def parseUpgrades (s : Text) : Answer (List Text) := names protocol (s.length + 1) s []

/-- `separator.join(parts)`. -/
def join (separator : Text) : List Text → Text
  | [] => []
  | [part] => part
  | part :: parts => part ++ separator ++ join separator parts

/-- `build_subprotocols`, lines 315-328. -/
def buildSubprotocols (subprotocols : List Text) : Text := join [',', ' '] subprotocols

abbrev Parameter := Text × Option Text

abbrev Extension := Text × List Parameter

/-- Lines 47-51. -/
def buildParameter : Parameter → Text
  | (key, none) => key
  | (key, some value) => key ++ '=' :: value

/-- `build_extensions`, lines 20-57. -/
def buildExtensions (extensions : List Extension) : Text :=
  join [',', ' '] (extensions.map fun e => join [';', ' '] (e.1 :: e.2.map buildParameter))

/-- How the inner loop of `parse_extensions` is left. -/
inductive Outcome
  /-- `return result` -/
  | returned (parameters : List Parameter)
  /-- `break` -/
  | next (parameters : List Parameter) (rest : Text)
  /-- `raise ValueError` -/
  | failed
deriving DecidableEq, Repr

/-- The part of the inner loop that is skipped after an item without a value, lines 112-141;
`.inl` leaves the loop. -/
def begun (checkStart : Bool) (s : Text) (parameters : List Parameter) : Outcome ⊕ Text :=
  if checkStart then
    match s.dropWhile space with
    | [] => .inl (.returned parameters)
    | ',' :: s => .inl (.next parameters s)
    | ';' :: s => .inr s
    | _ :: _ => .inl .failed
  else .inr s

/-- The value behind the `=`, lines 196-240; `none` is `ValueError`. -/
def parameterValue (s : Text) : Option (Text × Text) :=
  match s.dropWhile space with
  | [] => none
  | '"' :: s =>
    match token s with
    | some (value, '"' :: s) => some (value, s)
    | _ => none
  | c :: s => token (c :: s)

/-- The inner loop of `parse_extensions`, lines 110-243. -/
def parameterLoop : Nat → Bool → Text → List Parameter → Option Outcome
  | 0, _, _, _ => none
  | rounds + 1, checkStart, s, parameters =>
    match begun checkStart s parameters with
    | .inl outcome => some outcome
    | .inr s =>
      match s.dropWhile space with
      | [] => some (.next parameters [])
      | c :: s =>
        match token (c :: s) with
        | none => some .failed
        | some (key, s) =>
          match s.dropWhile space with
          | [] => some (.next (parameters ++ [(key, none)]) [])
          | ',' :: s => some (.next (parameters ++ [(key, none)]) s)
          | ';' :: s => parameterLoop rounds false s (parameters ++ [(key, none)])
          | '=' :: s =>
            match parameterValue s with
            | none => some .failed
            | some (value, s) => parameterLoop rounds true s (parameters ++ [(key, some value)])
          | _ :: _ => some .failed

/-- The outer loop of `parse_extensions`, lines 86-243.  `check_start` is true whenever the
inner loop is entered. -/
def extensionLoop : Nat → Text → List Extension → Answer (List Extension)
  | 0, _, _ => none
  | rounds + 1, s, result =>
    match s.dropWhile listStart with
    | [] => some (.ok result)
    | c :: s =>
      match token (c :: s) with
      | none => some (.error ())
      | some (name, s) =>
        match parameterLoop (s.length + 1) true s [] with
        | none => none
        | some .failed => some (.error ())
        | some (.returned parameters) => some (.ok (result ++ [(name, parameters)]))
        | some (.next parameters s) => extensionLoop rounds s (result ++ [(name, parameters)])

/-- `parse_extensions`, lines 60-243. -/
def parseExtensions (s : Text) : Answer (List Extension) := extensionLoop (s.length + 1) s []

end Verif.Header
