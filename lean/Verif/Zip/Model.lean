/-! Model of zip streaming (`streaming/zip_streaming/zip_stream.py`, `file_state.py`, `compression.py`, `constants.py`).

Bytes are natural numbers. A file is given by its (deduplicated, see the area `Dedup`) name in utf-8, the length of the name in
characters, the date, and the chunks of its asynchronous generator. `zlib.compressobj` is an arbitrary machine; `zlib.crc32` is spelled
out. A failing `Struct.pack` raises `struct.error`, which ends the stream. -/
namespace Verif.Zip

abbrev Bytes := List Nat

/-- `n` bytes, little endian: the codes `H` (2), `L` / `I` (4) and `Q` (8) of `struct` with `<`. -/
def le : Nat → Nat → Bytes
  | 0, _ => []
  | n + 1, v => v % 256 :: le n (v / 256)

/-- A member of a `Struct`: bytes, or an unsigned integer of `n` bytes. -/
inductive Field where
  | s (b : Bytes)
  | u (n v : Nat)
deriving DecidableEq, Repr

/-- `struct.error` if the number is too large. -/
def Field.pack : Field → Option Bytes
  | .s b => some b
  | .u n v => if v < 256 ^ n then some (le n v) else none

/-- `Struct.pack`. -/
def pack : List Field → Option Bytes
  | [] => some []
  | f :: fs =>
    match f.pack, pack fs with
    | some b, some bs => some (b ++ bs)
    | _, _ => none

/-- One bit of the crc. -/
def crcBit (c : UInt32) : UInt32 := if c &&& 1 = 1 then (c >>> 1) ^^^ 0xEDB88320 else c >>> 1

/-- One byte of the crc. -/
def crcByte (c : UInt32) (b : Nat) : UInt32 := crcBit (crcBit (crcBit (crcBit (crcBit (crcBit (crcBit (crcBit (c ^^^ UInt32.ofNat b))))))))

/-- `zlib.crc32(data, value)`. -/
def crc32 (data : Bytes) (value : UInt32) : UInt32 := ~~~ (data.foldl crcByte (~~~ value))

/-- `zlib.compressobj`. -/
structure Deflate where
  σ : Type
  init : σ
  compress : σ → Bytes → σ × Bytes
  flush : σ → Bytes

/-- `ZipStreamFile` (file.py). -/
structure File where
  name : Bytes
  /-- `len(name)`, in characters -/
  nameLength : Nat
  /-- `compression_method`: checked by `check_compression_method_supported` to be `0` or `8` -/
  deflate : Bool
  year : Nat
  month : Nat
  day : Nat
  hour : Nat
  minute : Nat
  second : Nat
  /-- what `async_generator` yields -/
  chunks : List Bytes
deriving DecidableEq, Repr

/-- `compression_method` (constants.py 23-26). -/
def File.method (f : File) : Nat := if f.deflate then 8 else 0

/-- `ZipStreamFileState` (file_state.py 8-88). -/
structure FileState where
  crc : UInt32 := 0
  flags : Nat
  date : Nat
  time : Nat
  name : Bytes
  offset : Nat := 0
  sizeCompressed : Nat := 0
  sizeUncompressed : Nat := 0

/-- `(x << 9 | month << 5 | day) & 0xffff` (58). Python's integers are unbounded and signed; a year before 1980 gives a negative
`year - 1980`, whose low bits are those of `year - 1980 + 128` (the years 1 to 9999 need no more than 16 times 128). -/
def dosDate (year month day : Nat) : Nat := (((year + 2048 - 1980) <<< 9) ||| (month <<< 5) ||| day) % 65536

/-- `(hour << 11 | minute << 5 | second >> 1) & 0xffff` (59). -/
def dosTime (hour minute second : Nat) : Nat := ((hour <<< 11) ||| (minute <<< 5) ||| (second >>> 1)) % 65536

/-- `ZipStreamFileState.__new__` (44-83). -/
def FileState.new (f : File) : FileState :=
  { flags := if f.nameLength ≠ f.name.length then 8 ||| 2048 else 8
    date := dosDate f.year f.month f.day
    time := dosTime f.hour f.minute f.second
    name := f.name }

/-- `_create_local_file_header` (zip_stream.py 19-47). -/
def localFileHeader (f : File) (s : FileState) : Option Bytes :=
  pack [.s [0x50, 0x4b, 3, 4], .u 2 45, .u 2 s.flags, .u 2 f.method, .u 2 s.time, .u 2 s.date, .u 4 0, .u 4 0, .u 4 0, .u 2 s.name.length, .u 2 0]

/-- `_create_data_descriptor` (50-68). -/
def dataDescriptor (s : FileState) : Option Bytes :=
  pack [.s [0x50, 0x4b, 7, 8], .u 4 s.crc.toNat, .u 8 s.sizeCompressed, .u 8 s.sizeUncompressed]

/-- `_create_central_directory_file_header` (71-105). -/
def centralHeader (f : File) (s : FileState) : Option Bytes :=
  pack [.s [0x50, 0x4b, 1, 2], .u 2 2629, .u 2 45, .u 2 s.flags, .u 2 f.method, .u 2 s.time, .u 2 s.date, .u 4 s.crc.toNat, .u 4 0xffffffff,
    .u 4 0xffffffff, .u 2 s.name.length, .u 2 28, .u 2 0, .u 2 0, .u 2 0, .u 4 0, .u 4 0xffffffff]

/-- `_create_zip64_extra_field` (108-127). -/
def extraField (s : FileState) : Option Bytes :=
  pack [.s [1, 0], .u 2 24, .u 8 s.sizeUncompressed, .u 8 s.sizeCompressed, .u 8 s.offset]

/-- `_create_zip64_end_of_central_directory_record` (130-162). -/
def end64Record (count offset size : Nat) : Option Bytes :=
  pack [.s [0x50, 0x4b, 6, 6], .u 8 44, .u 2 2629, .u 2 45, .u 4 0, .u 4 0, .u 8 count, .u 8 count, .u 8 size, .u 8 offset]

/-- `_create_zip64_end_of_central_directory_locator` (165-183). -/
def end64Locator (offset : Nat) : Option Bytes := pack [.s [0x50, 0x4b, 6, 7], .u 4 0, .u 8 offset, .u 4 1]

/-- `_create_end_of_central_directory_record` (186-208). -/
def endRecord (count : Nat) : Option Bytes :=
  pack [.s [0x50, 0x4b, 5, 6], .u 2 0, .u 2 0, .u 2 count, .u 2 count, .u 4 0xffffffff, .u 4 0xffffffff, .u 2 0]

/-- The compressor of a file: `none` for `CompressorBase`. -/
abbrev Compressor (d : Deflate) := Option d.σ

/-- `select_compressor_type(...)()` (compression.py 122-141). -/
def Compressor.new (d : Deflate) (f : File) : Compressor d := if f.deflate then some d.init else none

/-- `CompressorBase.process` (23-41), `CompressorZlibDeflate.process` (79-84). -/
def Compressor.process {d : Deflate} (c : Compressor d) (s : FileState) (chunk : Bytes) : Compressor d × FileState × Bytes :=
  match c with
  | none => (none, { s with crc := crc32 chunk s.crc, sizeUncompressed := s.sizeUncompressed + chunk.length, sizeCompressed := s.sizeUncompressed + chunk.length }, chunk)
  | some σ =>
    let (σ', out) := d.compress σ chunk
    (some σ', { s with crc := crc32 chunk s.crc, sizeUncompressed := s.sizeUncompressed + chunk.length, sizeCompressed := s.sizeCompressed + out.length }, out)

/-- `CompressorBase.tail` (44-52), `CompressorZlibDeflate.tail` (88-91). -/
def Compressor.tail {d : Deflate} (c : Compressor d) (s : FileState) : FileState × Bytes :=
  match c with
  | none => (s, [])
  | some σ => ({ s with sizeCompressed := s.sizeCompressed + (d.flush σ).length }, d.flush σ)

/-- `if chunk: yield chunk`. -/
def yielded (chunk : Bytes) : List Bytes := if chunk = [] then [] else [chunk]

/-- The loop over the chunks of a file (263-270). -/
def streamChunks {d : Deflate} : Compressor d → FileState → List Bytes → List Bytes × FileState
  | c, s, [] =>
    let (s', out) := c.tail s
    (yielded out, s')
  | c, s, chunk :: chunks =>
    let (c', s', out) := c.process s chunk
    let (ys, s'') := streamChunks c' s' chunks
    (yielded out ++ ys, s'')

/-- The body of the first loop (251-281): what is yielded, and the state of the file unless `struct.error` is raised. -/
def streamFile (d : Deflate) (f : File) (s : FileState) : List Bytes × Option FileState :=
  match localFileHeader f s with
  | none => ([], none)
  | some header =>
    let (ys, s') := streamChunks (Compressor.new d f) s f.chunks
    match dataDescriptor s' with
    | none => (header :: s.name :: ys, none)
    | some descriptor => (header :: s.name :: ys ++ [descriptor], some s')

/-- The first loop (249-281). -/
def streamFiles (d : Deflate) : Nat → List File → List Bytes × Option (Nat × List (File × FileState))
  | offset, [] => ([], some (offset, []))
  | offset, f :: fs =>
    match streamFile d f { FileState.new f with offset := offset } with
    | (ys, none) => (ys, none)
    | (ys, some s) =>
      let (zs, r) := streamFiles d (offset + (30 + s.name.length + s.sizeCompressed + 24)) fs
      (ys ++ zs, r.map fun (o, l) => (o, (f, s) :: l))

/-- The second loop (292-296). -/
def streamCentral : List (File × FileState) → List Bytes × Bool
  | [] => ([], true)
  | (f, s) :: l =>
    match centralHeader f s with
    | none => ([], false)
    | some header =>
      match extraField s with
      | none => ([header, s.name], false)
      | some extra =>
        let (ys, ok) := streamCentral l
        (header :: s.name :: extra :: ys, ok)

/-- The size of the central directory (290, 296). -/
def centralSize (l : List (File × FileState)) : Nat := (46 + 28) * l.length + (l.map fun p => p.2.name.length).sum

/-- `stream_zip` (211-301): all that is yielded, and whether the stream ends without `struct.error`. -/
def stream (d : Deflate) (files : List File) : List Bytes × Bool :=
  match streamFiles d 0 files with
  | (ys, none) => (ys, false)
  | (ys, some (offset, l)) =>
    match streamCentral l with
    | (zs, false) => (ys ++ zs, false)
    | (zs, true) =>
      match end64Record l.length offset (centralSize l) with
      | none => (ys ++ zs, false)
      | some record =>
        match end64Locator (offset + centralSize l) with
        | none => (ys ++ zs ++ [record], false)
        | some locator =>
          match endRecord l.length with
          | none => (ys ++ zs ++ [record, locator], false)
          | some e => (ys ++ zs ++ [record, locator, e], true)

end Verif.Zip
