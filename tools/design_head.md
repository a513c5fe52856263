# Formal model of scarletio - design

Subject: `HuyaneMatsu/scarletio` (Python), source read as text from `/repo`. All file/line references below and in the Lean
comments are relative to `/repo/scarletio`.

This file is put together by `tools/design.py` from `tools/design_head.md`, `tools/areas.json`, `properties.jsonl` and
`MANIFEST.json`. `MANIFEST.json` is put together by `tools/manifest.py` from the theorems in the `Props*.lean` files and
`tools/notes.json`; `AXIOMS.md` by `tools/axioms.py`.

## Layout

* `lean/Verif/<Area>/Model.lean` (and others without prefix) - definitions mirroring the Python functions branch by branch.
  Every definition cites file and lines and says what was simplified.
* `lean/Verif/<Area>/Spec.lean` - small independent specifications (only where the statement needs vocabulary; otherwise the
  specification is at the beginning of the `Props` file).
* `lean/Verif/<Area>/*Lemmas.lean` - helper lemmas.
* `lean/Verif/<Area>/Props*.lean` - the property theorems, each with a concrete non-trivial instance beside it. Only names
  from these files appear in `MANIFEST.json`.
* `seeded/LOG.jsonl` - wrong programs the theorems were tested against: one line for every change made to a model in a scratch
  copy, with the theorems that stopped being provable, and those tightened because a wrong program was not noticed.

Naming: `Cxx_...` proves property Cxx of `properties.jsonl`; `Cxx_..._partial` proves only part of it (the doc comment says
what is missing); `Cxx_..._violated` proves that the code as it exists does *not* have the property, by a concrete reachable
witness or a family of them. A property with a `_violated` theorem cannot be proved for this code; its status is `partial`,
and the `_partial` theorems say for which inputs or histories it does hold.

## Modelling conventions

* Bytes are `UInt8` (or an arbitrary type with decidable equality where the code never looks at the value); text is
  `List Char`; Python `int` is `Nat`/`Int`; `None` is `Option.none`; a `deque`/`list` is `List`; identity of Python objects
  is a `Nat` identifier.
* Python exceptions are values (`Except`, or an `Outcome` inductive) - every error branch of a modelled function is present.
* Coroutines are cut at their suspension points. A coroutine which only suspends in order to receive the next chunk of data
  is modelled as a function consuming the list "chunks buffered now ++ chunks that will arrive before EOF": the coroutine
  asks for a new chunk only if the buffer is empty, and everything received meanwhile is appended at the end of the buffer
  (`protocol.py` 487-531, 779-794), so this list is exactly what it observes under every arrival schedule.
* Concurrent objects (futures, locks, queues, pools, loop) are transition systems `step : State -> Op -> State x Out`, and
  theorems quantify over all finite operation lists (no bound) or over all reachable states.
* Loops which may not end are given a number of rounds (fuel); the theorems say what happens for every number of rounds.
* Time is an arbitrary `Nat`/`Int` supplied by the operation (the model never assumes it advances, unless stated).
* What Python's Unicode tables say (`str.casefold`, `str.isspace`, idna, ...) is a parameter of the model unless the comment of
  the definition says otherwise; theorems hold for every such table.

## Trusted base

* Lean 4.33.0 kernel. No own axioms, no `sorry`, no `native_decide`, no `bv_decide`. Theorems depend at most on `propext`,
  `Classical.choice`, `Quot.sound`; `AXIOMS.md` lists the axioms of every theorem of `MANIFEST.json`.
* `decide` and `decide +kernel` are used for complete finite tables (all bytes, all head bytes), for the instances beside the
  theorems and for the witnesses of violations; never in place of a proof about all inputs.
* The hand translation Python -> Lean (the comments give the source lines so that it can be audited).
* Semantics of Python builtins that are modelled: `deque`/`list`/`dict`/`set` operations, `bytes.find`, slicing, `int(x, 16)`,
  `str` methods used by the parsers, the regular expressions of the modelled functions, UTF-8 encoding/decoding.
* Not modelled: the selector and sockets of the OS (they appear as arbitrary inputs), TLS, threads other than where stated,
  garbage collection (where weak references matter, the death of an object is an operation), compression, repr methods
  (other than where stated), logging, deprecations.
