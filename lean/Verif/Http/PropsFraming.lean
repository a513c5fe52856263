import Verif.Http.Framing

/-!
# Properties of how the payload of a message is read

C90, C91, C92.
-/

namespace Verif.Http

/-! ### What RFC 7230 says -/

/-- All values of a header. -/
def values (u : Tables) (headers : Headers) (name : Bytes) : List Bytes := (headers.get (casefold u) name).getD []

/-- The text, cut at its commas. -/
def commas : Bytes → List Bytes
  | [] => [[]]
  | b :: bs =>
    if b = 44 then [] :: commas bs
    else match commas bs with
      | [] => [[b]]
      | part :: parts => (b :: part) :: parts

/-- The elements of a header that is a list: all its values count (section 3.2.2), and empty elements do
not (section 7). -/
def elements (u : Tables) (headers : Headers) (name : Bytes) : List Bytes :=
  ((values u headers name).flatMap fun v => (commas v).map fun e => casefold u (strip e)).filter (· ≠ [])

inductive Frame
  | nothing
  | chunks
  | exactly (n : Nat)
  | untilEof
  /-- The message is to be refused. -/
  | refuse
deriving DecidableEq, Repr

/-- The payload of a response to a request which is neither `HEAD` nor `CONNECT`, section 3.3.3: the
status, then the transfer codings, then the length, then the end of the connection. -/
def frameOf (u : Tables) (status : Nat) (headers : Headers) : Frame :=
  if status = 204 ∨ status = 304 ∨ (100 ≤ status ∧ status < 200) then .nothing
  else if elements u headers hTransfer ≠ [] then
    if (elements u headers hTransfer).getLast? = some (bytes "chunked") then .chunks else .untilEof
  else match values u headers hLength with
    | [] => .untilEof
    | v :: vs =>
      if v ≠ [] ∧ (∀ b ∈ v, digit b = true) ∧ ∀ w ∈ vs, w = v then
        if number v = 0 then .nothing else .exactly (number v)
      else .refuse

/-- What is read by a reader. -/
def Reader.frame : Reader → Frame
  | .nothing => .nothing
  | .chunks _ => .chunks
  | .exactly n _ => .exactly n
  | .untilEof => .untilEof

/-! ### Lemmas -/

theorem first_values (u : Tables) (headers : Headers) (name : Bytes) :
    first u headers name = (values u headers name).head? := by
  unfold first values
  cases headers.get (casefold u) name <;> rfl

theorem ascii_digits {v : Bytes} (h : ∀ b ∈ v, digit b = true) : ascii v = true := by
  unfold ascii
  rw [List.all_eq_true]
  intro b hb
  have h1 := h b hb
  have : ∀ i : Fin 256, digit (UInt8.ofNat i.val) = true → decide (UInt8.ofNat i.val < 128) = true := by decide +kernel
  have := this ⟨b.toNat, b.toNat_lt⟩
  simp only [UInt8.ofNat_toNat] at this
  exact this h1

theorem emptyStatus_iff (status : Nat) :
    emptyStatus status = true ↔ status = 204 ∨ status = 304 ∨ (100 ≤ status ∧ status < 200) := by
  simp only [emptyStatus, Bool.or_eq_true, Bool.and_eq_true, decide_eq_true_eq, or_assoc]

theorem occurs_self (needle : Bytes) (h : needle ≠ []) : occurs needle needle = true := by
  cases needle with
  | nil => exact absurd rfl h
  | cons b bs =>
    rw [occurs, Bool.or_eq_true]
    exact Or.inl (List.isPrefixOf_iff_prefix.mpr (List.prefix_refl _))

/-! ## C90: the frame of the payload -/

/-- **C90, partial.** The payload of a response is read the way RFC 7230 says, if the response does not
say that it is upgraded, has no transfer codings but at most `chunked`, and its length, if there is
one, is given once, and by digits.  (The content encoding has to be a known one.) -/
theorem C90_partial (hasBrotli : Bool) (u : Tables) (status : Nat) (version : Version) (headers : Headers)
    (hup : upgraded u ⟨.response status, version, headers⟩ = false)
    (ht : values u headers hTransfer = [] ∨ ∃ coding, values u headers hTransfer = [coding] ∧ 44 ∉ coding ∧
      casefold u coding = bytes "chunked" ∧ casefold u (strip coding) = bytes "chunked")
    (hl : values u headers hLength = [] ∨ ∃ v, values u headers hLength = [v] ∧ v ≠ [] ∧ ∀ b ∈ v, digit b = true)
    (decoder : Decoder) (hd : decoderFor hasBrotli (encoding u ⟨.response status, version, headers⟩) = .ok decoder) :
    ∃ reader, readerFor hasBrotli u ⟨.response status, version, headers⟩ = .ok reader ∧
      reader.frame = frameOf u status headers := by
  -- the transfer codings
  have hchunk : chunked u ⟨.response status, version, headers⟩ = true ∧ elements u headers hTransfer = [bytes "chunked"]
      ∨ chunked u ⟨.response status, version, headers⟩ = false ∧ elements u headers hTransfer = [] := by
    rcases ht with ht | ⟨coding, ht, hcomma, hf, hs⟩
    · right
      constructor
      · rw [chunked, first_values, ht]; rfl
      · rw [elements, ht]; rfl
    · left
      constructor
      · rw [chunked, first_values, ht]
        show occurs (bytes "chunked") (casefold u coding) = true
        rw [hf]
        exact occurs_self _ (by decide)
      · have hc : ∀ c : Bytes, 44 ∉ c → commas c = [c] := by
          intro c
          induction c with
          | nil => intro _; rfl
          | cons b c ih =>
            intro h
            rw [commas, if_neg (fun e => h (by simp [e])), ih fun e => h (by simp [e])]
        rw [elements, ht, List.flatMap_cons, List.flatMap_nil, List.append_nil, hc coding hcomma]
        show List.filter _ [casefold u (strip coding)] = _
        rw [hs]
        decide
  -- the length
  have hlen : (lengthOf u ⟨.response status, version, headers⟩ = .ok none ∧ values u headers hLength = []) ∨
      ∃ v, lengthOf u ⟨.response status, version, headers⟩ = .ok (some (number v)) ∧ values u headers hLength = [v] ∧
        v ≠ [] ∧ ∀ b ∈ v, digit b = true := by
    rcases hl with hl | ⟨v, hl, hne, hdig⟩
    · left
      exact ⟨by rw [lengthOf, first_values, hl]; rfl, hl⟩
    · right
      refine ⟨v, ?_, hl, hne, hdig⟩
      rw [lengthOf, first_values, hl]
      have h1 : isDigits u v = true := by
        rw [isDigits, if_pos (ascii_digits hdig), Bool.and_eq_true]
        exact ⟨by simpa using hne, List.all_eq_true.mpr hdig⟩
      have h2 : toInt u v = some (number v) := by rw [toInt, if_pos (ascii_digits hdig)]
      show (if !isDigits u v then Except.error Error.payload else match toInt u v with
        | none => .error .value
        | some n => .ok (some n)) = _
      rw [h1, h2]
      rfl
  unfold readerFor frameOf
  by_cases hs : emptyStatus status = true
  · rw [if_pos ((emptyStatus_iff status).mp hs)]
    rcases hlen with ⟨h1, _⟩ | ⟨v, h1, _⟩
    · simp only [h1, hup, plainReader, hs, if_true]
      exact ⟨.nothing, rfl, rfl⟩
    · simp only [h1, hup, plainReader, hs, if_true]
      exact ⟨.nothing, rfl, rfl⟩
  · rw [if_neg fun h => hs ((emptyStatus_iff status).mpr h)]
    have hs' : emptyStatus status = false := by simpa using hs
    rcases hchunk with ⟨hc, he⟩ | ⟨hc, he⟩
    · rw [he, if_pos (by simp), if_pos (show [bytes "chunked"].getLast? = some (bytes "chunked") from rfl)]
      rcases hlen with ⟨h1, _⟩ | ⟨v, h1, _⟩
      · simp only [h1, hup, plainReader, hs', hc, hd, if_true]
        exact ⟨.chunks decoder, rfl, rfl⟩
      · simp only [h1, hup, plainReader, hs', hc, hd, if_true]
        exact ⟨.chunks decoder, rfl, rfl⟩
    · rw [he, if_neg (by simp)]
      rcases hlen with ⟨h1, h2⟩ | ⟨v, h1, h2, hne, hdig⟩
      · rw [h2]
        simp only [h1, hup, plainReader, hs', hc]
        refine ⟨.untilEof, ?_, rfl⟩
        simp [lastReader, hs', hc]
      · rw [h2]
        simp only
        rw [if_pos ⟨hne, hdig, by simp⟩]
        simp only [h1, hup, plainReader, hs', hc, hd]
        cases hn : number v with
        | zero => exact ⟨.nothing, rfl, rfl⟩
        | succ n => exact ⟨.exactly (n + 1) decoder, rfl, rfl⟩

/-- **C90, partial.** A response whose length is not made of digits is refused. -/
theorem C90_refused_partial (hasBrotli : Bool) (u : Tables) (m : Message) (v : Bytes)
    (hl : values u m.headers hLength = [v]) (ha : ascii v = true) (hv : v = [] ∨ ∃ b ∈ v, digit b = false) :
    readerFor hasBrotli u m = .error .payload := by
  have h1 : isDigits u v = false := by
    rw [isDigits, if_pos ha, Bool.and_eq_false_iff]
    rcases hv with rfl | ⟨b, hb, hd⟩
    · left; rfl
    · right
      rw [List.all_eq_false]
      exact ⟨b, hb, by simp [hd]⟩
  have : lengthOf u m = .error .payload := by
    rw [lengthOf, first_values, hl]
    show (if !isDigits u v then _ else _) = _
    rw [h1]
    rfl
  rw [readerFor, this]

/-- A header dictionary with one header. -/
example (u : Tables) : readerFor false u ⟨.response 200, ⟨1, 1⟩, [(hLength, [bytes "12"])]⟩ = .ok (.exactly 12 .plain) := by
  rfl

/-- **C90 is violated**: `chunked` is looked for anywhere in the coding. -/
theorem C90_coding_violated (u : Tables) :
    readerFor false u ⟨.response 200, ⟨1, 1⟩, [(hTransfer, [bytes "unchunked"])]⟩ = .ok (.chunks .plain) ∧
      frameOf u 200 [(hTransfer, [bytes "unchunked"])] = .untilEof := by
  constructor <;> rfl

/-- **C90 is violated**: a length goes before transfer codings without `chunked`, and of several lines with
transfer codings only the first one counts. -/
theorem C90_lines_violated (u : Tables) :
    let headers : Headers := [(hTransfer, [bytes "gzip", bytes "chunked"]), (hLength, [bytes "5"])]
    readerFor false u ⟨.response 200, ⟨1, 1⟩, headers⟩ = .ok (.exactly 5 .plain) ∧
      frameOf u 200 headers = .chunks := by
  constructor <;> rfl

/-- **C90 is violated**: of different lengths the first one is taken, and the response is not refused. -/
theorem C90_lengths_violated (u : Tables) :
    let headers : Headers := [(hLength, [bytes "5", bytes "6"])]
    readerFor false u ⟨.response 200, ⟨1, 1⟩, headers⟩ = .ok (.exactly 5 .plain) ∧
      frameOf u 200 headers = .refuse := by
  constructor <;> rfl

/-- **C90 is violated**: a server that says that it could upgrade the connection sends a payload that is
not read. -/
theorem C90_upgrade_violated (u : Tables) :
    let headers : Headers := [(hUpgrade, [bytes "h2c"]), (hConnection, [bytes "upgrade"]), (hLength, [bytes "5"])]
    readerFor false u ⟨.response 200, ⟨1, 1⟩, headers⟩ = .ok .nothing ∧
      frameOf u 200 headers = .exactly 5 := by
  constructor <;> rfl

/-- **C90 is violated** for requests: `AttributeError` is raised for every request that is not upgraded and
whose length is a number. -/
theorem C90_request_violated (hasBrotli : Bool) (u : Tables) (method : Bytes) (version : Version) (headers : Headers)
    (hup : upgraded u ⟨.request method, version, headers⟩ = false) (length : Option Nat)
    (hl : lengthOf u ⟨.request method, version, headers⟩ = .ok length) :
    readerFor hasBrotli u ⟨.request method, version, headers⟩ = .error .attribute := by
  rw [readerFor, hl]
  simp only [hup, plainReader]
  rfl

/-! ## C91: decoding -/

/-- **C91, partial.** Payloads in chunks and payloads of a known length are decoded by the decoder for
their encoding. -/
theorem C91_partial (hasBrotli : Bool) (u : Tables) (m : Message) (reader : Reader) (decoder : Decoder)
    (h : readerFor hasBrotli u m = .ok reader)
    (hr : reader = .chunks decoder ∨ ∃ n, reader = .exactly n decoder) :
    decoderFor hasBrotli (encoding u m) = .ok decoder := by
  have key : ∀ {α : Type} (f : Decoder → α) (x : Except Error Decoder) (y : α), x.map f = .ok y → ∃ d, x = .ok d ∧ f d = y := by
    intro α f x y h
    cases x with
    | error e => cases h
    | ok d => exact ⟨d, rfl, by cases h; rfl⟩
  have hlast : ∀ length, lastReader hasBrotli u m length = .ok reader →
      decoderFor hasBrotli (encoding u m) = .ok decoder := by
    intro length hlr
    unfold lastReader at hlr
    split at hlr
    · split at hlr
      · cases hlr; rcases hr with h | ⟨n, h⟩ <;> cases h
      · split at hlr
        · cases hlr; rcases hr with h | ⟨n, h⟩ <;> cases h
        · cases hlr; rcases hr with h | ⟨n, h⟩ <;> cases h
    · split at hlr
      · cases hlr; rcases hr with h | ⟨n, h⟩ <;> cases h
      · split at hlr
        · cases hlr; rcases hr with h | ⟨n, h⟩ <;> cases h
        · split at hlr
          · obtain ⟨d, h1, h2⟩ := key _ _ _ hlr
            rcases hr with h | ⟨n, h⟩
            · rw [h] at h2; cases h2; exact h1
            · rw [h] at h2; cases h2
          · cases hlr; rcases hr with h | ⟨n, h⟩ <;> cases h
  unfold readerFor at h
  split at h
  · cases h
  · split at h
    · exact hlast _ h
    · split at h
      · cases h
      · rename_i r hp
        cases h
        unfold plainReader at hp
        split at hp
        · cases hp
        · split at hp
          · cases hp; rcases hr with h | ⟨n, h⟩ <;> cases h
          · split at hp
            · obtain ⟨d, h1, h2⟩ := key _ _ _ hp
              rcases hr with h | ⟨n, h⟩
              · rw [h] at h2; cases h2; exact h1
              · rw [h] at h2; cases h2
            · split at hp
              · obtain ⟨d, h1, h2⟩ := key _ _ _ hp
                rcases hr with h | ⟨n, h⟩
                · rw [h] at h2; cases h2
                · rw [h] at h2; cases h2; exact h1
              · cases hp
      · exact hlast _ h

/-- **C91 is violated** for payloads that go on to the end of the connection: whatever the encoding is, also
when it is not known, the payload is given as it is. -/
theorem C91_violated (hasBrotli : Bool) (u : Tables) (status : Nat) (version : Version) (headers : Headers)
    (hs : emptyStatus status = false) (ht : values u headers hTransfer = []) (hl : values u headers hLength = []) :
    readerFor hasBrotli u ⟨.response status, version, headers⟩ = .ok .untilEof := by
  have h1 : lengthOf u ⟨.response status, version, headers⟩ = .ok none := by rw [lengthOf, first_values, hl]; rfl
  have h2 : chunked u ⟨.response status, version, headers⟩ = false := by rw [chunked, first_values, ht]; rfl
  rw [readerFor, h1]
  simp only [plainReader, lastReader, hs, h2]
  split <;> rfl

example (u : Tables) : readerFor false u ⟨.response 200, ⟨1, 1⟩, [(hEncoding, [bytes "gzip"])]⟩ = .ok .untilEof := by rfl
example (u : Tables) : readerFor false u ⟨.response 200, ⟨1, 1⟩, [(hEncoding, [bytes "gzip"]), (hLength, [bytes "7"])]⟩
    = .ok (.exactly 7 .gzip) := by rfl

/-! ## C92: whether a connection stays open -/

/-- RFC 7230, section 6.3. -/
def staysOpen (u : Tables) (version : Version) (headers : Headers) : Bool :=
  let options := elements u headers hConnection
  if bytes "close" ∈ options then false
  else if 1 < version.major ∨ (version.major = 1 ∧ 1 ≤ version.minor) then true
  else bytes "keep-alive" ∈ options

/-- **C92, partial.** Messages with no connection options, or with the single option `close` or `keep-alive`. -/
theorem C92_partial (u : Tables) (m : Message)
    (h : values u m.headers hConnection = [] ∨ values u m.headers hConnection = [bytes "close"] ∨
      values u m.headers hConnection = [bytes "keep-alive"]) :
    keepAlive u m = staysOpen u m.version m.headers := by
  unfold keepAlive staysOpen elements
  rw [first_values]
  rcases h with h | h | h
  · rw [h]
    simp [Bool.decide_or, Bool.decide_and]
  · rw [h]
    have : ((List.flatMap (fun v => (commas v).map fun e => casefold u (strip e)) [bytes "close"]).filter (· ≠ []))
        = [bytes "close"] := by rfl
    simp only [this]
    simp only [List.mem_singleton, if_true, List.head?_cons]
    rfl
  · rw [h]
    have : ((List.flatMap (fun v => (commas v).map fun e => casefold u (strip e)) [bytes "keep-alive"]).filter (· ≠ []))
        = [bytes "keep-alive"] := by rfl
    simp only [this]
    rw [if_neg (by decide)]
    have h2 : decide (bytes "keep-alive" ∈ [bytes "keep-alive"]) = true := by decide
    simp only [List.head?_cons, h2]
    have h3 : (!occurs (bytes "close") (casefold u (bytes "keep-alive"))) = true := by rfl
    rw [h3]
    split <;> rfl

/-- **C92 is violated**: `close` on a second line is not seen. -/
theorem C92_lines_violated (u : Tables) (status : Nat) :
    let headers : Headers := [(hConnection, [bytes "keep-alive", bytes "close"])]
    keepAlive u ⟨.response status, ⟨1, 1⟩, headers⟩ = true ∧ staysOpen u ⟨1, 1⟩ headers = false := by
  constructor <;> rfl

/-- **C92 is violated**: any option keeps an HTTP/1.0 connection open. -/
theorem C92_old_violated (u : Tables) (status : Nat) :
    let headers : Headers := [(hConnection, [bytes "TE"])]
    keepAlive u ⟨.response status, ⟨1, 0⟩, headers⟩ = true ∧ staysOpen u ⟨1, 0⟩ headers = false := by
  constructor <;> rfl

end Verif.Http
