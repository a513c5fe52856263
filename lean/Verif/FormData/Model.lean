/-
Model of form data.

Source: `/repo/scarletio/web_common/form_data.py` (`FormData.add_field` `248-313`, `add_json` `226-245`,
`_generate_form_data` `316-373`, `_generate_form_urlencoded` `376-399`, `generate_form` `402-424`), and of
`/repo/scarletio/web_common/multipart.py` `create_payload` (`30-75`), and the constructors of the payloads (`101-139`,
`227-241`, `279-311`, `370-395`, `441-470`), as far as they decide about the headers and the content of a part, and
`MultipartWriter.append` (`1169-1214`). `urllib.parse.urlencode` with `doseq` is modelled from CPython.

Strings are lists of code points; the encoding is a parameter, with its name. `str` of other objects and `to_json` are given
with the objects. `mimetypes.guess_type` is a parameter. The names of fields are strings. Asynchronous payloads are left out.
-/
namespace Verif.FormData

abbrev Text := List Nat
abbrev Bytes := List Nat

/-- The attribute `name` of a file: missing, a string, or a number (of a file which was opened by its descriptor). -/
inductive FileName where
  | missing
  | text (t : Text)
  | number (n : Nat)
deriving DecidableEq, Repr

inductive Value where
  | str (t : Text)
  | bytes (b : Bytes)
  /-- A `BytesIO`, a `BufferedReader` or another binary `IOBase`, with what will be read from it. -/
  | binary (name : FileName) (content : Bytes)
  /-- A `TextIOBase`, but no `StringIO`. -/
  | textual (name : FileName) (content : Text)
  /-- A list or a tuple of objects, by their `str`. -/
  | seq (items : List Text)
  /-- Any other object, as a number, by its `str`. -/
  | object (shown : Text)
deriving DecidableEq, Repr

/-- A parameter which should be `None` or a string. -/
inductive Arg where
  | none
  | text (t : Text)
  | bad
deriving DecidableEq, Repr

structure Field where
  name : Text
  fileName : Option Text
  contentType : Option Text
  transfer : Option Text
  value : Value
deriving DecidableEq, Repr

structure Form where
  fields : List Field
  multipart : Bool
deriving DecidableEq, Repr

def Form.new : Form := ⟨[], false⟩

/-- `isinstance(value, IOBase)` -/
def Value.isFile : Value → Bool
  | .binary _ _ => true
  | .textual _ _ => true
  | _ => false

def Value.isBytes : Value → Bool
  | .bytes _ => true
  | _ => false

/-- `getattr(value, 'name', name)`, for a file. -/
def Value.fileName (name : Text) : Value → Arg
  | .binary .missing _ => .text name
  | .binary (.text t) _ => .text t
  | .binary (.number _) _ => .bad
  | .textual .missing _ => .text name
  | .textual (.text t) _ => .text t
  | .textual (.number _) _ => .bad
  | _ => .none

/-- The file name which `add_field` uses (`271-282`). -/
def chosen (name : Text) (value : Value) (fileName transfer : Arg) : Arg :=
  if fileName = .none then
    if value.isFile then value.fileName name
    else if value.isBytes ∧ transfer = .none then .text name
    else .none
  else fileName

def Arg.isText : Arg → Bool
  | .text _ => true
  | _ => false

def Arg.toOption : Arg → Option Text
  | .text t => some t
  | _ => Option.none

/-- `add_field` and whether it returned: else it raised. The flag is set as the parameters are handled, one by one. -/
def Form.addField (s : Form) (name : Text) (value : Value) (contentType fileName transfer : Arg) : Form × Bool :=
  let f := chosen name value fileName transfer
  let m0 := s.multipart || value.isFile
  if f = .bad then (⟨s.fields, m0⟩, false)
  else
    let m1 := m0 || f.isText
    if contentType = .bad then (⟨s.fields, m1⟩, false)
    else
      let m2 := m1 || contentType.isText
      if transfer = .bad then (⟨s.fields, m2⟩, false)
      else (⟨s.fields ++ [⟨name, f.toOption, contentType.toOption, transfer.toOption, value⟩],
             m2 || transfer.isText⟩, true)

/-- `'application/json'` -/
def json : Text := [97, 112, 112, 108, 105, 99, 97, 116, 105, 111, 110, 47, 106, 115, 111, 110]

/-- `add_json`; what `to_json` makes of the value is given. -/
def Form.addJson (s : Form) (name dumped : Text) : Form :=
  ⟨s.fields ++ [⟨name, none, some json, none, .str dumped⟩], true⟩

/-! ### Encoded as urls -/

/-- The characters which are never quoted. -/
def unreserved (b : Nat) : Bool :=
  (65 ≤ b && b ≤ 90) || (97 ≤ b && b ≤ 122) || (48 ≤ b && b ≤ 57) || b == 95 || b == 46 || b == 45 || b == 126

def hex (d : Nat) : Nat := if d < 10 then 48 + d else 55 + d

/-- One byte; `space` tells whether the string contained a space, which makes it safe, and replaced afterwards. -/
def quoteByte (space : Bool) (b : Nat) : Bytes :=
  if unreserved b then [b] else if b = 32 ∧ space then [43] else [37, hex (b / 16), hex (b % 16)]

/-- An encoding: its name, and what it makes of a string, if it can. -/
structure Encoding where
  name : Text
  encode : Text → Option Bytes

/-- `quote_plus` -/
def quotePlus (e : Encoding) (t : Text) : Option Bytes :=
  (e.encode t).map fun b => b.flatMap (quoteByte (32 ∈ t))

/-- The values of a field for `urlencode`. -/
def Value.shown : Value → List Text
  | .str t => [t]
  | .seq ts => ts
  | .object t => [t]
  | _ => []

/-- `k + '=' + v` -/
def pair (e : Encoding) (name value : Text) : Option Bytes :=
  (quotePlus e name).bind fun k => (quotePlus e value).map fun v => k ++ 61 :: v

/-- `'&'.join(…)` -/
def joinPairs : List Bytes → Bytes
  | [] => []
  | [p] => p
  | p :: q :: l => p ++ 38 :: joinPairs (q :: l)

/-- The pairs of a form. -/
def Form.pairs (s : Form) : List (Text × Text) := s.fields.flatMap fun f => f.value.shown.map fun v => (f.name, v)

/-- `_generate_form_urlencoded` -/
def Form.urlencoded (e : Encoding) (s : Form) : Option Bytes := (s.pairs.mapM fun p => pair e p.1 p.2).map joinPairs

/-! ### Multipart -/

/-- `'application/octet-stream'` -/
def octets : Text :=
  [97, 112, 112, 108, 105, 99, 97, 116, 105, 111, 110, 47, 111, 99, 116, 101, 116, 45, 115, 116, 114, 101, 97, 109]

/-- `'text/plain; charset='` -/
def plain : Text := [116, 101, 120, 116, 47, 112, 108, 97, 105, 110, 59, 32, 99, 104, 97, 114, 115, 101, 116, 61]

/-- A part: its headers of content type, the parameters of its disposition, its transfer encoding, its content. -/
structure Part where
  contentTypes : List Text
  name : Text
  fileName : Option Text
  transfer : Option Text
  content : Bytes
deriving DecidableEq, Repr

/-- What `PayloadBase.__init__` guesses for a file without a content type (`120-130`, `381-384`); `none` if it raises. -/
def guessed (guess : Text → Option Text) : FileName → Option Text
  | .missing => some octets
  | .text t => some ((guess t).getD octets)
  | .number _ => none

def FileName.isNumber : FileName → Bool
  | .number _ => true
  | _ => false

/-- The content type and the content of the payload of a value (`create_payload`); `none` if that raises. The file name of
the field is in the keyword parameters only if a content type is (`form_data.py` `350-358`), and is not needed then.
Else the one of the file is used, also for a disposition of the payload, which raises if it is a number. -/
def payload (e : Encoding) (guess : Text → Option Text) (contentType : Option Text) : Value → Option (Text × Bytes)
  | .str t => (e.encode t).map fun b => (contentType.getD (plain ++ e.name), b)
  | .bytes b => some (contentType.getD octets, b)
  | .binary n b => match contentType with
    | some c => some (c, b)
    | none => (guessed guess n).map fun c => (c, b)
  | .textual n t => match contentType with
    | some c => (e.encode t).map fun b => (c, b)
    | none => if n.isNumber then none else (e.encode t).map fun b => (plain ++ e.name, b)
  | .seq _ => none
  | .object _ => none

/-- Adding a header of a value which may be there already (`IgnoreCaseMultiValueDictionary.extend`). -/
def extended (l : List Text) : Option Text → List Text
  | none => l
  | some t => if t ∈ l then l else l ++ [t]

/-- One field of `_generate_form_data` (`339-371`). -/
def Field.part (e : Encoding) (guess : Text → Option Text) (f : Field) : Option Part :=
  (payload e guess f.contentType f.value).map fun p =>
    ⟨extended [p.1] f.contentType, f.name, f.fileName, f.transfer, p.2⟩

/-- `_generate_form_data` -/
def Form.parts (e : Encoding) (guess : Text → Option Text) (s : Form) : Option (List Part) :=
  s.fields.mapM (Field.part e guess)

inductive Body where
  | url (b : Bytes)
  | parts (l : List Part)
deriving DecidableEq, Repr

/-- `generate_form` -/
def Form.generate (e : Encoding) (guess : Text → Option Text) (s : Form) : Option Body :=
  if s.multipart then (s.parts e guess).map .parts else (s.urlencoded e).map .url

/-- The headers of content type of a part which `MultipartWriter.append` makes of bytes, a string or a file, with the
content type of the given headers. -/
def appended (guess : Text → Option Text) (utf8 : Encoding) (given : Option Text) (v : Value) : Option (List Text) :=
  (payload utf8 guess none v).map fun p => extended [p.1] given

end Verif.FormData
