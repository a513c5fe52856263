import Verif.Dns.Names
import Verif.Dns.Address

/-!
# The resolver's configuration files

Model of `update_resolve_configuration_from_file_content`, `parse_configuration_file_content`
(the part behind the line splitting) and `merge_configuration` of
`scarletio/dns_query/resolve_configuration.py`.

* A line of `resolv.conf` is the list of its words, `line.split()`; that the content is split
  into lines and that lines starting with `#` or `;` are left out (lines 569-570) is not
  modelled.
* `str.isdigit` is modelled for ASCII digits (for other digits `int` may raise; not modelled).
* A timeout is a number of seconds, always a whole one when it is read from a file.
* Dictionaries are lists of entries, as in the other models.
-/

namespace Verif.Dns

/-- The boolean options of `ResolveConfiguration` a file can switch on, by their name in the
file, resolve_configuration.py lines 644-688. -/
inductive Switch
  | debug
  | rotate
  | noAaaa
  | noCheckNames
  | inet6
  | edns0
  | singleRequest
  | singleRequestReopen
  | noTldQuery
  | useVc
  | noReload
  | trustAd
deriving DecidableEq, Repr

/-- The names, resolve_configuration.py lines 644-688. -/
def switchNames : List (Text × Switch) := [
  ("debug".toList, .debug),
  ("rotate".toList, .rotate),
  ("no-aaaa".toList, .noAaaa),
  ("no-check-names".toList, .noCheckNames),
  ("inet6".toList, .inet6),
  ("edns0".toList, .edns0),
  ("single-request".toList, .singleRequest),
  ("single-request-reopen".toList, .singleRequestReopen),
  ("no-tld-query".toList, .noTldQuery),
  ("use-vc".toList, .useVc),
  ("no-reload".toList, .noReload),
  ("trust-ad".toList, .trustAd)]

/-- The `option_` attributes of `ResolveConfiguration`; `on` are the switches that are on. -/
structure Options where
  on : List Switch
  dots : Nat
  timeout : Nat
  attempts : Nat
deriving DecidableEq, Repr

/-- The defaults, constants.py lines 85, 89 and 93. -/
def Options.default : Options := ⟨[], 1, 5, 2⟩

/-- `if value < lower: value = lower; elif value > upper: value = upper`. -/
def clamp (lower upper value : Nat) : Nat :=
  if value < lower then lower else if upper < value then upper else value

/-- What the code does with `option_name`, resolve_configuration.py lines 640-738.  The
thresholds are those of constants.py lines 83-92. -/
def applyOption (o : Options) (word : Text) : Options :=
  match switchNames.find? (·.1 = word) with
  | some (_, switch) => { o with on := if switch ∈ o.on then o.on else o.on ++ [switch] }
  | none =>
    if word ∈ ["ip6-bytestring".toList, "ip6-dotint".toList, "no-ip6-dotint".toList] then o
    else if ':' ∉ word then o
    else
      let name := word.takeWhile (· ≠ ':')
      let value := (word.dropWhile (· ≠ ':')).drop 1
      if !isDecimal value then o
      else if name = "ndots".toList then { o with dots := clamp 1 30 (decimalValue value) }
      else if name = "timeout".toList then { o with timeout := clamp 1 30 (decimalValue value) }
      else if name = "attempts".toList then { o with attempts := clamp 1 5 (decimalValue value) }
      else o

/-- What can be in `ResolveConfiguration.sort_list`. -/
inductive SortItem
  | element (element : SortListElement)
  | text (text : Text)
deriving DecidableEq, Repr

/-- `ResolveConfiguration`. -/
structure Config where
  options : Options
  nameServers : Option (List (IpType × Nat))
  searches : Option (List (List Bytes))
  sortList : Option (List SortItem)
deriving DecidableEq, Repr

/-- The local variables of `update_resolve_configuration_from_file_content`; a list is `none`
until it is mentioned, and `some []` when it is only mentioned. -/
structure Reading where
  options : Options
  nameServers : Option (List (IpType × Nat)) := none
  searches : Option (List (List Bytes)) := none
  sortList : Option (List SortItem) := none
deriving DecidableEq, Repr

/-- The `for index in range(1, len(split))` loop of `search`, resolve_configuration.py lines
610-619. -/
def readSearches (u : Unicode) : List Text → Except NameError (List (List Bytes))
  | [] => .ok []
  | word :: words =>
    match parseLabelsFromName u word with
    | .error e => .error e
    | .ok labels =>
      match readSearches u words with
      | .error e => .error e
      | .ok rest => .ok (labels.toList ++ rest)

/-- One line, resolve_configuration.py lines 569-738. -/
def readLine (u : Unicode) (r : Reading) : List Text → Except NameError Reading
  | [] => .ok r
  | [key] =>
    if key = "nameserver".toList then .ok { r with nameServers := some (r.nameServers.getD []) }
    else if key = "search".toList then .ok { r with searches := some (r.searches.getD []) }
    else if key = "sortlist".toList then .ok { r with sortList := some (r.sortList.getD []) }
    else .ok r
  | key :: first :: rest =>
    if key = "nameserver".toList then
      match parseIp first with
      | (.none, _) => .ok r
      | (ipType, ipValue) => .ok { r with nameServers := some (r.nameServers.getD [] ++ [(ipType, ipValue)]) }
    else if key = "search".toList then
      match readSearches u (first :: rest) with
      | .error e => .error e
      | .ok searches => .ok { r with searches := some (r.searches.getD [] ++ searches) }
    else if key = "sortlist".toList then
      .ok { r with sortList := some (r.sortList.getD [] ++ (first :: rest).map SortItem.text) }
    else if key = "options".toList then .ok { r with options := applyOption r.options first }
    else .ok r

/-- All lines. -/
def readLines (u : Unicode) : Reading → List (List Text) → Except NameError Reading
  | r, [] => .ok r
  | r, line :: lines =>
    match readLine u r line with
    | .error e => .error e
    | .ok r => readLines u r lines

/-- An empty list is stored as `None`, resolve_configuration.py lines 740-761. -/
def stored {α : Type} : List α → Option (List α)
  | [] => none
  | l => some l

/-- `update_resolve_configuration_from_file_content`, resolve_configuration.py lines 549-761. -/
def updateFromFile (u : Unicode) (c : Config) (lines : List (List Text)) : Except NameError Config :=
  match readLines u { options := c.options } lines with
  | .error e => .error e
  | .ok r => .ok {
      options := r.options
      nameServers := match r.nameServers with
        | none => c.nameServers
        | some l => stored l
      searches := match r.searches with
        | none => c.searches
        | some l => stored l
      sortList := match r.sortList with
        | none => c.sortList
        | some l => stored l }

/-- `iter_intermediate_intermediate_addresses_ordered`, helpers.py lines 493-535, for a sort
list as it can be in a configuration: a text has no `ip_type`, so the first address that is
compared with it raises `AttributeError`, here `none`. -/
def orderItems : List SortItem → List Address → Option (List Address)
  | [], addresses => some addresses
  | _ :: _, [] => some []
  | .element element :: items, address :: addresses =>
    let (found, left) := orderOne element [] (address :: addresses)
    (orderItems items left).map (found ++ ·)
  | .text _ :: _, _ :: _ => none

/-! ### The files of systemd -/

/-- `dict<str, str>`. -/
abbrev Section := List (Text × Text)

/-- `dict<str, dict<str, str>>`. -/
abbrev Sections := List (Text × Section)

/-- `dictionary.get(key)`. -/
def dictGet {α : Type} (d : List (Text × α)) (key : Text) : Option α := (d.find? (·.1 = key)).map (·.2)

/-- `dictionary[key] = value`. -/
def dictSet {α : Type} (d : List (Text × α)) (key : Text) (value : α) : List (Text × α) :=
  if (dictGet d key).isSome then d.map fun e => if e.1 = key then (key, value) else e
  else d ++ [(key, value)]

/-- The loop over the keys of a section, resolve_configuration.py lines 840-844. -/
def mergeSection (into : Section) : Section → Section
  | [] => into
  | (key, value) :: rest =>
    mergeSection
      (if value ≠ [] then dictSet into key value
        else if (dictGet into key).isSome then into else dictSet into key value) rest

/-- `merge_configuration`, resolve_configuration.py lines 821-845. -/
def mergeConfiguration (into : Sections) : Sections → Sections
  | [] => into
  | (name, source) :: rest =>
    mergeConfiguration
      (match dictGet into name with
        | none => dictSet into name source
        | some target => dictSet into name (mergeSection target source)) rest

/-- A line of such a file without its comment and stripped, resolve_configuration.py lines
779-812. -/
inductive IniLine
  | sectionName (name : Text)
  | entry (key value : Text)
deriving DecidableEq, Repr

/-- What is done with the lines, resolve_configuration.py lines 776-817: the current section
name and the configuration. -/
def iniStep (state : Text × Sections) : IniLine → Text × Sections
  | .sectionName name => (name, state.2)
  | .entry key value =>
    (state.1, dictSet state.2 state.1 (dictSet ((dictGet state.2 state.1).getD []) key value))

def iniLines (lines : List IniLine) : Sections := (lines.foldl iniStep ([], [])).2

end Verif.Dns
