import Verif.Zip.Model
/-! What a reader of zip archives does, after the zip specification (APPNOTE.TXT 6.3), independent of the model. -/
namespace Verif.Zip.Spec

abbrev Bytes := List Nat

/-- A parser consumes a prefix of the bytes. -/
abbrev Parser (α : Type) := Bytes → Option (α × Bytes)

/-- Exactly the given bytes. -/
def lit (x : Bytes) : Parser Unit := fun b => if x.isPrefixOf b then some ((), b.drop x.length) else none

/-- `n` bytes. -/
def bytes (n : Nat) : Parser Bytes := fun b => if n ≤ b.length then some (b.take n, b.drop n) else none

/-- The value of little endian bytes. -/
def value : Bytes → Nat
  | [] => 0
  | x :: r => x + 256 * value r

/-- A little endian integer of `n` bytes. -/
def int (n : Nat) : Parser Nat := fun b => (bytes n b).map fun (x, r) => (value x, r)

def then' {α β : Type} (p : Parser α) (q : α → Parser β) : Parser β := fun b =>
  match p b with
  | none => none
  | some (a, r) => q a r

/-- What an archive tells about a file. -/
structure Entry where
  name : Bytes
  flags : Nat
  method : Nat
  time : Nat
  date : Nat
  crc : Nat
  size : Nat
  /-- the compressed data -/
  data : Bytes
deriving DecidableEq, Repr

/-- What an entry of the central directory tells. -/
structure Central where
  name : Bytes
  flags : Nat
  method : Nat
  time : Nat
  date : Nat
  crc : Nat
  size : Nat
  compressed : Nat
  offset : Nat
deriving DecidableEq, Repr

/-- 4.3.12, with the zip64 extra field of 4.5.3 (the fields are masked by `0xffffffff` and follow in the given order). -/
def central : Parser Central :=
  then' (lit [0x50, 0x4b, 1, 2]) fun _ => then' (bytes 4) fun _ => then' (int 2) fun flags => then' (int 2) fun method => then' (int 2) fun time =>
  then' (int 2) fun date => then' (int 4) fun crc => then' (lit [255, 255, 255, 255]) fun _ => then' (lit [255, 255, 255, 255]) fun _ =>
  then' (int 2) fun nameLength => then' (lit [28, 0]) fun _ => then' (lit [0, 0]) fun _ => then' (lit [0, 0]) fun _ => then' (bytes 6) fun _ => then' (lit [255, 255, 255, 255]) fun _ =>
  then' (bytes nameLength) fun name => then' (lit [1, 0]) fun _ => then' (lit [24, 0]) fun _ => then' (int 8) fun size => then' (int 8) fun compressed =>
  then' (int 8) fun offset => fun r => some (⟨name, flags, method, time, date, crc, size, compressed, offset⟩, r)

/-- `n` entries. -/
def centrals : Nat → Parser (List Central)
  | 0 => fun r => some ([], r)
  | n + 1 => then' central fun c => then' (centrals n) fun cs => fun r => some (c :: cs, r)

/-- 4.3.7: the local header, whose name has to be that of the central directory, followed by the data. -/
def localData (c : Central) : Parser Bytes :=
  then' (lit [0x50, 0x4b, 3, 4]) fun _ => then' (bytes 2) fun _ => then' (int 2) fun flags => then' (int 2) fun method => then' (bytes 4) fun _ => then' (bytes 12) fun _ =>
  then' (int 2) fun nameLength => then' (int 2) fun extraLength => then' (bytes nameLength) fun name => then' (bytes extraLength) fun _ =>
  then' (bytes c.compressed) fun data => fun r => if name = c.name ∧ flags = c.flags ∧ method = c.method then some (data, r) else none

/-- The file of an entry of the central directory. -/
def entry (archive : Bytes) (c : Central) : Option Entry :=
  (localData c (archive.drop c.offset)).map fun (data, _) => ⟨c.name, c.flags, c.method, c.time, c.date, c.crc, c.size, data⟩

/-- 4.3.14: number of entries, size and offset of the central directory. -/
def end64 : Parser (Nat × Nat × Nat) :=
  then' (lit [0x50, 0x4b, 6, 6]) fun _ => then' (int 8) fun size => then' (bytes 4) fun _ => then' (lit [0, 0, 0, 0, 0, 0, 0, 0]) fun _ => then' (int 8) fun here => then' (int 8) fun count =>
  then' (int 8) fun centralSize => then' (int 8) fun centralOffset => fun r => if size = 44 ∧ here = count then some ((count, centralSize, centralOffset), r) else none

/-- 4.3.15: where the record above is. -/
def locator : Parser Nat := then' (lit [0x50, 0x4b, 6, 7]) fun _ => then' (lit [0, 0, 0, 0]) fun _ => then' (int 8) fun offset => then' (lit [1, 0, 0, 0]) fun _ => fun r => some (offset, r)

/-- 4.3.16, without comment. -/
def endOfArchive : Parser Nat := then' (lit [0x50, 0x4b, 5, 6, 0, 0, 0, 0]) fun _ => then' (int 2) fun here => then' (int 2) fun count =>
  then' (lit [255, 255, 255, 255, 255, 255, 255, 255, 0, 0]) fun _ => fun r => if here = count ∧ r = [] then some (count, r) else none

/-- Reads an archive from its end. The central directory has to fill the space up to the record which describes it. -/
def readZip (archive : Bytes) : Option (List Entry) :=
  match endOfArchive (archive.drop (archive.length - 22)), locator (archive.drop (archive.length - 42)) with
  | some _, some (offset, _) =>
    match end64 (archive.drop offset) with
    | some ((count, centralSize, centralOffset), _) =>
      if centralOffset + centralSize = offset then
        match centrals count (archive.drop centralOffset) with
        | some (cs, rest) => if rest.length = archive.length - offset then cs.mapM (entry archive) else none
        | none => none
      else none
    | none => none
  | _, _ => none

/-- All of a file. -/
def contents (f : File) : Bytes := f.chunks.flatten

/-- What the deflater makes of the chunks, one after the other. -/
def deflated (d : Deflate) : d.σ → List Bytes → Bytes
  | σ, [] => d.flush σ
  | σ, chunk :: chunks => (d.compress σ chunk).2 ++ deflated d (d.compress σ chunk).1 chunks

/-- The data as it is to be stored. -/
def stored (d : Deflate) (f : File) : Bytes := if f.deflate then deflated d d.init f.chunks else contents f

/-- What the archive has to tell about a file: bit 3 of the flags says that a data descriptor follows the data, bit 11 that the name is utf-8. -/
def expected (d : Deflate) (f : File) : Entry :=
  { name := f.name
    flags := if f.nameLength = f.name.length then 8 else 2056
    method := if f.deflate then 8 else 0
    time := dosTime f.hour f.minute f.second
    date := dosDate f.year f.month f.day
    crc := (crc32 (contents f) 0).toNat
    size := (contents f).length
    data := stored d f }

/-- What the format can hold, together with the limit of the last record: its number of files is not masked. -/
def Fits (d : Deflate) (files : List File) : Prop :=
  (∀ f ∈ files, f.name.length < 65536 ∧ (contents f).length < 2 ^ 64) ∧ files.length < 65536 ∧
  (files.map fun f => 54 + f.name.length + (stored d f).length).sum + (files.map fun f => 74 + f.name.length).sum < 2 ^ 64

/-- What the zip64 format can hold: the number of files is a number of 8 bytes. -/
def Format (d : Deflate) (files : List File) : Prop :=
  (∀ f ∈ files, f.name.length < 65536 ∧ (contents f).length < 2 ^ 64) ∧ files.length < 2 ^ 64 ∧
  (files.map fun f => 54 + f.name.length + (stored d f).length).sum + (files.map fun f => 74 + f.name.length).sum < 2 ^ 64

/-- 4.4.6: bits 0-4 are the day, 5-8 the month, 9-15 the year since 1980. -/
def decodeDate (v : Nat) : Nat × Nat × Nat := (1980 + v / 512, v / 32 % 16, v % 32)

/-- 4.4.6: bits 0-4 are the second divided by 2, 5-10 the minute, 11-15 the hour. -/
def decodeTime (v : Nat) : Nat × Nat × Nat := (v / 2048, v / 32 % 64, 2 * (v % 32))

/-- A file as it is found when the archive is read from its front. -/
structure Found where
  name : Bytes
  data : Bytes
  crc : Nat
  compressed : Nat
  size : Nat
deriving DecidableEq, Repr

/-- 4.3.7, 4.3.9: a local header without extra field, the data (whose end is known from the data itself), and the data descriptor with sizes of `w` bytes: 8 if the local
header has a zip64 extra field, else 4 (4.3.9.2). -/
def found (w length : Nat) : Parser Found :=
  then' (lit [0x50, 0x4b, 3, 4]) fun _ => then' (bytes 22) fun _ => then' (int 2) fun nameLength => then' (lit [0, 0]) fun _ => then' (bytes nameLength) fun name => then' (bytes length) fun data =>
  then' (lit [0x50, 0x4b, 7, 8]) fun _ => then' (int 4) fun crc => then' (int w) fun compressed => then' (int w) fun size => fun r => some (⟨name, data, crc, compressed, size⟩, r)

/-- Reads files from the front. -/
def sequential (w : Nat) : List Nat → Parser (List Found)
  | [] => fun r => some ([], r)
  | n :: ns => then' (found w n) fun x => then' (sequential w ns) fun xs => fun r => some (x :: xs, r)

end Verif.Zip.Spec
