/-
Model of the byte-stream reading half of `core/protocols_and_transports/protocol.py`.

The coroutines of `ReadProtocolBase` suspend only in `_wait_for_data` (779-794), which they call only if `self._chunks` is
empty, and which appends the received chunk to `self._chunks`. Chunks arriving while no reader is set are appended to the same
deque (`data_received` 487-494). So what a reader observes under any arrival schedule is the list
"chunks buffered now ++ chunks that arrive until EOF". `RState.chunks` is that list.
-/
namespace Verif.Stream

variable {α : Type}

/-- State of a reading protocol. `chunks` : `self._chunks` followed by the chunks that will still arrive before EOF.
`offset` : `self._offset` (protocol.py 231-293), the amount of already consumed bytes of the first chunk.
`atEof` : whether EOF was already signalled when the reader started (`self._at_eof`, 441-442). If it is `false`, EOF arrives
while the reader is suspended and is thrown into it (`eof_received` 451-452). -/
structure RState (α : Type) where
  chunks : List (List α)
  offset : Nat
  atEof : Bool
deriving Repr, DecidableEq

/-- Result of a reader: the chunks it yielded and the protocol state it leaves behind.
`eof` is the `EOFError` case (turned into `ConnectionError` by `set_payload_reader` / `data_received` / `eof_received`). -/
inductive RRes (α : Type) where
  | ok (out : List (List α)) (rest : RState α)
  | eof (out : List (List α)) (rest : RState α)
deriving Repr, DecidableEq

/-- Prepends already yielded chunks to the result of the continuation of a generator. -/
def RRes.yield (pre : List (List α)) : RRes α → RRes α
  | .ok out rest => .ok (pre ++ out) rest
  | .eof out rest => .eof (pre ++ out) rest

/-- The `while True` loop of `_read_exactly_by_chunk` (protocol.py 864-890). `n` is the amount still to read (> 0).
`stale` is the value of `self._offset`, which the loop leaves untouched until it returns. -/
def readExactlyLoop (atEof : Bool) (stale : Nat) : Nat → List (List α) → RRes α
  | _, [] =>
    -- 868-870 (offset reset) if eof was seen before, else `EOFError` thrown at 872 (offset stays).
    .eof [] ⟨[], if atEof then 0 else stale, true⟩
  | n, chunk :: rest =>
    if chunk.length < n then
      -- 877-880
      (readExactlyLoop atEof stale (n - chunk.length) rest).yield [chunk]
    else if chunk.length = n then
      -- 882-886
      .ok [chunk] ⟨rest, 0, atEof⟩
    else
      -- 888-890
      .ok [chunk.take n] ⟨chunk :: rest, n, atEof⟩

/-- `_read_exactly_by_chunk` (protocol.py 797-890). Precondition of the code: `n > 0`.
Simplification: for a chunk that had to be waited for the code uses offset `0` instead of `self._offset` (825-826); with an
empty buffer `self._offset` is `0` (invariant `WF`), so the model uses `offset` in both cases. -/
def readExactly (n : Nat) (s : RState α) : RRes α :=
  match s.chunks with
  | [] => .eof [] { s with atEof := true }  -- 822-825
  | chunk :: rest =>
    if s.offset = 0 then
      if n < chunk.length then
        .ok [chunk.take n] ⟨chunk :: rest, n, s.atEof⟩          -- 830-833
      else if chunk.length = n then
        .ok [chunk] ⟨rest, 0, s.atEof⟩                          -- 836-840
      else
        (readExactlyLoop s.atEof s.offset (n - chunk.length) rest).yield [chunk]  -- 842-844
    else
      let stop := s.offset + n
      if stop < chunk.length then
        .ok [(chunk.take stop).drop s.offset] ⟨chunk :: rest, stop, s.atEof⟩   -- 848-851
      else if chunk.length = stop then
        .ok [chunk.drop s.offset] ⟨rest, 0, s.atEof⟩            -- 854-858
      else
        (readExactlyLoop s.atEof s.offset (n - (chunk.length - s.offset)) rest).yield
          [chunk.drop s.offset]                                 -- 860-862

/-- `_read_until_eof` (protocol.py 1103-1138): pops all buffered chunks, the first one cut at the offset, then every
chunk that arrives until EOF. Returns the chunks given to the payload stream. -/
def readUntilEof (s : RState α) : List (List α) × RState α :=
  match s.chunks with
  | [] => ([], ⟨[], 0, true⟩)
  | chunk :: rest =>
    ((if s.offset = 0 then chunk else chunk.drop s.offset) :: rest, ⟨[], 0, true⟩)

/-- `_read_once` (protocol.py 1141-1174). -/
def readOnce (s : RState α) : List (List α) × RState α :=
  match s.chunks with
  | [] => ([], { s with atEof := true })
  | chunk :: rest =>
    ([if s.offset = 0 then chunk else chunk.drop s.offset], ⟨rest, 0, s.atEof⟩)

variable [DecidableEq α]

/-- `bytes.find(boundary, offset)` : smallest index `≥ offset` at which `boundary` occurs. -/
def findFrom (b : List α) (offset : Nat) (c : List α) : Option Nat :=
  (List.range' offset (c.length + 1 - offset)).find? (fun i => b.isPrefixOf (c.drop i))

/-- `_get_end_intersection_sizes` (protocol.py 17-58). The inner `for .. else` (44-50) accepts `i` iff all bytes of
`chunk[i:]` equal the first bytes of the boundary. `None` is the empty list. -/
def endSizes (c : List α) (offset : Nat) (b : List α) : List Nat :=
  let start0 : Int := (c.length : Int) - ((b.length : Int) - 1)
  let start : Nat := if start0 < (offset : Int) then offset else if start0 < 0 then 0 else start0.toNat
  ((List.range' start (c.length - start)).filter (fun i => (c.drop i).isPrefixOf b)).map (fun i => c.length - i)

/-- `_finish_intersection_sizes` (protocol.py 61-104): consumed amount or `none` (`-1`), and the sizes for which the chunk is
too small. -/
def finishSizes (c b : List α) : List Nat → Option Nat × List Nat
  | [] => (none, [])
  | size :: sizes =>
    let leftover := b.length - size
    if c.length < leftover then
      match finishSizes c b sizes with
      | (some r, _) => (some r, [])
      | (none, cont) => (none, size :: cont)
    else if c.take leftover = b.drop size then
      (some leftover, [])
    else finishSizes c b sizes

/-- `_continue_intersection_sizes` (protocol.py 107-141). -/
def continueSizes (c b : List α) (sizes : List Nat) : List Nat :=
  (sizes.filter (fun size => c.isPrefixOf (b.drop size))).map (fun size => size + c.length)

omit [DecidableEq α] in
/-- The loop of `_get_released_from_held_back` (protocol.py 176-201), `amount` > 0. -/
def releaseLoop : Nat → List (List α) → List (List α) × List (List α)
  | _, [] => ([], [])
  | amount, c :: held =>
    if c.length < amount then
      let (r, h) := releaseLoop (amount - c.length) held
      (c :: r, h)
    else if amount < c.length then
      ([c.take amount], c.drop amount :: held)
    else ([c], held)

omit [DecidableEq α] in
/-- `_get_released_from_held_back` (protocol.py 144-203). -/
def releaseHeld (held : List (List α)) (keep : Int) : List (List α) × List (List α) :=
  if keep ≤ 0 then (held, [])
  else
    let amount : Int := ((held.map List.length).sum : Int) - keep
    if amount ≤ 0 then ([], held)
    else releaseLoop amount.toNat held

/-- `_read_until_by_chunk` (protocol.py 948-1054). `sizes` : `intersection_sizes` (`[]` = `None`), `held` : `held_back`,
`offset` : the offset of the first chunk. -/
def readUntilLoop (atEof : Bool) (b : List α) : List (List α) → Nat → List Nat → List (List α) → RRes α
  | [], offset, _, _ => .eof [] ⟨[], offset, true⟩                              -- 973-976
  | c :: cs, offset, sizes, held =>
    -- lines 1021-1054, entered with the given offset and held back chunks
    let search (offset : Nat) : RRes α :=
      match findFrom b offset c with
      | some index =>
        -- 1024-1034
        let off := index + b.length
        let out := if offset ≠ index then [(c.take index).drop offset] else []
        if off = c.length then .ok out ⟨cs, 0, atEof⟩ else .ok out ⟨c :: cs, off, atEof⟩
      | none =>
        -- 1036-1054
        let c' := if offset ≠ 0 then c.drop offset else c
        match endSizes c' offset b with
        | [] => (readUntilLoop atEof b cs 0 [] held).yield [c']
        | size :: sizes' =>
          let off := c'.length - size
          (readUntilLoop atEof b cs 0 (size :: sizes') [c'.drop off]).yield
            (if off = 0 then [] else [c'.take off])
    if sizes = [] then search offset
    else
      match finishSizes c b sizes with
      | (some off, _) =>
        -- 982-994
        let off' := if off = c.length then 0 else off
        let chunks' := if off = c.length then cs else c :: cs
        .ok (releaseHeld held ((b.length : Int) - off')).1 ⟨chunks', off', atEof⟩
      | (none, []) =>
        -- 996-1002, then falls to 1021
        (search 0).yield held
      | (none, cont) =>
        -- 1004-1019
        let sizes' := continueSizes c b cont ++ endSizes c 0 b
        let rel := releaseHeld (held ++ [c]) b.length
        (readUntilLoop atEof b cs 0 sizes' rel.2).yield rel.1

/-- `_read_until_by_chunk` from the beginning. -/
def readUntil (b : List α) (s : RState α) : RRes α :=
  readUntilLoop s.atEof b s.chunks s.offset [] []

end Verif.Stream
