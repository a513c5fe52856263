import Verif.Dns.Loop

/-!
# DNS messages: properties

* C43: what `build_query_data` writes, `parse_result_data` reads back.
* C44: `parse_result_data` ends for every byte string.  **Violated** by every message with a
  name that points at itself; the partial theorems say what is left.
* C64: names written with compression pointers are read as RFC 1035 describes them.
-/

namespace Verif.Dns

/-! ## C43 -/

/-- A query that fits into a message: 16 bit identifier and counts, valid questions and
records. -/
structure QueryOk (q : Query) : Prop where
  transactionId : q.transactionId < 65536
  questionCount : (q.questions.getD []).length < 65536
  recordCount : (q.additionalResourceRecords.getD []).length < 65536
  questions : ∀ question ∈ q.questions.getD [], QuestionOk question
  records : ∀ record ∈ q.additionalResourceRecords.getD [], RecordOk record

/-- What the reader is to answer for a query that is sent back unchanged: the same
identifier, questions and additional records, the verified flag that was set, and nothing
else. -/
def Query.echoed (q : Query) (setVerified : Bool) : Result where
  transactionId := q.transactionId
  dataVerified := setVerified
  truncated := false
  recursionAvailable := false
  responseCode := 0
  questions := (present q.questions).map (·.map Question.read)
  answers := none
  authorityResourceRecords := none
  additionalResourceRecords := (present q.additionalResourceRecords).map (·.map ResourceRecord.read)

theorem present_map {α : Type} (o : Option (List α)) (f : α → α) :
    tupleOrNone ((o.getD []).map f) = (present o).map (·.map f) := by
  cases o with
  | none => rfl
  | some l => cases l <;> rfl

theorem queryFlags_lt (a b c : Bool) : queryFlags a b c < 256 ^ 2 := by
  cases a <;> cases b <;> cases c <;> decide

/-- The header in front of the questions and records. -/
theorem header_slices (a b c d e f g h i j k l : UInt8) (rest : Bytes) :
    let data := [a, b] ++ [c, d] ++ [e, f] ++ [g, h, i, j] ++ [k, l] ++ rest
    slice data 0 2 = [a, b] ∧ slice data 2 4 = [c, d] ∧ slice data 4 6 = [e, f] ∧
      slice data 6 8 = [g, h] ∧ slice data 8 10 = [i, j] ∧ slice data 10 12 = [k, l] := by
  simp [slice]

theorem be_two (n : Nat) : be 2 n = [UInt8.ofNat (n / 256 % 256), UInt8.ofNat (n % 256)] := rfl

/-- What is written for a query that fits. -/
theorem build_ok (q : Query) (setVerified : Bool) (h : QueryOk q) :
    ∃ questions records,
      buildAll buildQuestion (q.questions.getD []) = some questions ∧
      buildAll buildResourceRecord (q.additionalResourceRecords.getD []) = some records ∧
      buildQueryData q setVerified = some (be 2 q.transactionId
        ++ be 2 (queryFlags q.recursionDesired setVerified q.dataVerificationDesired)
        ++ be 2 (q.questions.getD []).length ++ [0, 0, 0, 0]
        ++ be 2 (q.additionalResourceRecords.getD []).length ++ questions ++ records) := by
  obtain ⟨questions, hq, -⟩ := buildAll_ends buildQuestion parseQuestion Question.read
    (q.questions.getD []) (fun e he => buildQuestion_ends e (h.questions e he))
  obtain ⟨records, hr, -⟩ := buildAll_ends buildResourceRecord parseResourceRecord
    ResourceRecord.read (q.additionalResourceRecords.getD [])
    (fun e he => buildResourceRecord_ends e (h.records e he))
  refine ⟨questions, records, hq, hr, ?_⟩
  have h1 : q.transactionId < 256 ^ 2 := h.transactionId
  have h2 : (q.questions.getD []).length < 256 ^ 2 := h.questionCount
  have h3 : (q.additionalResourceRecords.getD []).length < 256 ^ 2 := h.recordCount
  simp [buildQueryData, toBytes_some h1, toBytes_some h2, toBytes_some h3,
    toBytes_some (queryFlags_lt _ _ _), hq, hr]

/-- **C43.** Every query that fits is written, and the reading of what was written ends with
the same transaction identifier, the same verified flag, the same questions and the same
additional records, with no answers, no authority records and no error. -/
theorem C43_round_trip (q : Query) (setVerified : Bool) (h : QueryOk q) :
    ∃ data, buildQueryData q setVerified = some data ∧
      Ends (fun fuel => parseResultData fuel data) (.ok (q.echoed setVerified)) := by
  obtain ⟨questions, records, hq, hr, hb⟩ := build_ok q setVerified h
  refine ⟨_, hb, ?_⟩
  obtain ⟨questions', hq', hqe⟩ := buildAll_ends buildQuestion parseQuestion Question.read
    (q.questions.getD []) (fun e he => buildQuestion_ends e (h.questions e he))
  obtain ⟨records', hr', hre⟩ := buildAll_ends buildResourceRecord parseResourceRecord
    ResourceRecord.read (q.additionalResourceRecords.getD [])
    (fun e he => buildResourceRecord_ends e (h.records e he))
  obtain rfl : questions = questions' := by rw [hq] at hq'; exact Option.some.inj hq'
  obtain rfl : records = records' := by rw [hr] at hr'; exact Option.some.inj hr'
  have v1 := fromBytes_be 2 q.transactionId h.transactionId
  have v2 := fromBytes_be 2 _ (queryFlags_lt q.recursionDesired setVerified q.dataVerificationDesired)
  have v3 := fromBytes_be 2 (q.questions.getD []).length h.questionCount
  have v4 := fromBytes_be 2 (q.additionalResourceRecords.getD []).length h.recordCount
  obtain ⟨s1, s2, s3, s4, s5, s6⟩ := header_slices
    (UInt8.ofNat (q.transactionId / 256 % 256)) (UInt8.ofNat (q.transactionId % 256))
    (UInt8.ofNat (queryFlags q.recursionDesired setVerified q.dataVerificationDesired / 256 % 256))
    (UInt8.ofNat (queryFlags q.recursionDesired setVerified q.dataVerificationDesired % 256))
    (UInt8.ofNat ((q.questions.getD []).length / 256 % 256))
    (UInt8.ofNat ((q.questions.getD []).length % 256)) 0 0 0 0
    (UInt8.ofNat ((q.additionalResourceRecords.getD []).length / 256 % 256))
    (UInt8.ofNat ((q.additionalResourceRecords.getD []).length % 256)) (questions ++ records)
  simp only [← be_two] at s1 s2 s3 s4 s5 s6
  have hqe' := hqe (be 2 q.transactionId
    ++ be 2 (queryFlags q.recursionDesired setVerified q.dataVerificationDesired)
    ++ be 2 (q.questions.getD []).length ++ [0, 0, 0, 0]
    ++ be 2 (q.additionalResourceRecords.getD []).length) records
  have hre' := hre (be 2 q.transactionId
    ++ be 2 (queryFlags q.recursionDesired setVerified q.dataVerificationDesired)
    ++ be 2 (q.questions.getD []).length ++ [0, 0, 0, 0]
    ++ be 2 (q.additionalResourceRecords.getD []).length ++ questions) []
  rw [List.append_nil] at hre'
  simp only [List.append_assoc] at s1 s2 s3 s4 s5 s6 hqe' hre' ⊢
  generalize hD : be 2 q.transactionId
    ++ (be 2 (queryFlags q.recursionDesired setVerified q.dataVerificationDesired)
    ++ (be 2 (q.questions.getD []).length ++ ([0, 0, 0, 0]
    ++ (be 2 (q.additionalResourceRecords.getD []).length ++ (questions ++ records))))) = data at *
  have hlen : ¬ data.length < 12 := by
    rw [← hD]
    simp only [List.length_append, be_length, List.length_cons, List.length_nil]
    omega
  obtain ⟨n, hn⟩ := hqe'
  obtain ⟨m, hm⟩ := hre'
  refine ⟨max n m, fun fuel hf => ?_⟩
  have p1 := hn fuel (by omega)
  have p2 := hm fuel (by omega)
  simp only [List.length_append, be_length, List.length_cons, List.length_nil] at p1 p2
  rw [show 2 + (2 + (2 + (0 + 1 + 1 + 1 + 1 + 2))) = 12 by rfl] at p1
  rw [show 2 + (2 + (2 + (0 + 1 + 1 + 1 + 1 + (2 + questions.length)))) = 12 + questions.length
    by omega] at p2
  have z : fromBytes [0, 0] = 0 := rfl
  simp only [parseResultData, if_neg hlen, s1, s2, s3, s4, s5, s6, v1, v2, v3, v4, z, p1,
    parseMany, p2]
  have f : ∀ a b c : Bool, decide ((queryFlags a b c >>> 5) &&& 1 ≠ 0) = b ∧
      decide ((queryFlags a b c >>> 9) &&& 1 ≠ 0) = false ∧
      decide ((queryFlags a b c >>> 7) &&& 1 ≠ 0) = false ∧
      (queryFlags a b c >>> 0) &&& 0b1111 = 0 := by decide
  obtain ⟨f1, f2, f3, f4⟩ := f q.recursionDesired setVerified q.dataVerificationDesired
  rw [f1, f2, f3, f4, present_map, present_map]
  rfl

/-- **C43.** The flags in the written message, bytes 2 and 3: recursion desired is bit 8,
verified data bit 5, verification desired bit 4 of RFC 1035 / 4035, and no other bit is
set. -/
theorem C43_flags (q : Query) (setVerified : Bool) (h : QueryOk q) :
    ∃ data, buildQueryData q setVerified = some data ∧
      ∀ bit, (fromBytes ((data.drop 2).take 2)).testBit bit
        = (bit = 8 ∧ q.recursionDesired ∨ bit = 5 ∧ setVerified ∨
            bit = 4 ∧ q.dataVerificationDesired : Bool) := by
  obtain ⟨questions, records, hq, hr, hb⟩ := build_ok q setVerified h
  refine ⟨_, hb, fun bit => ?_⟩
  have v2 := fromBytes_be 2 _ (queryFlags_lt q.recursionDesired setVerified q.dataVerificationDesired)
  rw [show List.take 2 (List.drop 2 (be 2 q.transactionId
        ++ be 2 (queryFlags q.recursionDesired setVerified q.dataVerificationDesired)
        ++ be 2 (q.questions.getD []).length ++ [0, 0, 0, 0]
        ++ be 2 (q.additionalResourceRecords.getD []).length ++ questions ++ records))
      = be 2 (queryFlags q.recursionDesired setVerified q.dataVerificationDesired) by
    simp [be_two], v2]
  by_cases hbit : bit < 16
  · have : ∀ a b c : Bool, ∀ bit < 16, (queryFlags a b c).testBit bit
        = (bit = 8 ∧ a ∨ bit = 5 ∧ b ∨ bit = 4 ∧ c : Bool) := by decide
    exact this _ _ _ bit hbit
  · have hlt : queryFlags q.recursionDesired setVerified q.dataVerificationDesired < 2 ^ bit :=
      Nat.lt_of_lt_of_le (queryFlags_lt _ _ _)
        (show 256 ^ 2 ≤ 2 ^ bit from
          Nat.le_trans (show 256 ^ 2 ≤ 2 ^ 16 by decide) (Nat.pow_le_pow_right (by decide) (by omega)))
    rw [Nat.testBit_lt_two_pow hlt]
    have h8 : bit ≠ 8 := by omega
    have h5 : bit ≠ 5 := by omega
    have h4 : bit ≠ 4 := by omega
    simp [h8, h5, h4]

/-- A query with one question (`a.bc`, type 28, class 1) and one record. -/
def sampleQuery : Query where
  transactionId := 0x1234
  recursionDesired := true
  dataVerificationDesired := false
  questions := some [⟨some [[97], [98, 99]], 28, 1⟩]
  additionalResourceRecords := some [⟨none, 41, 1232, 7, some [1, 2]⟩]

example : QueryOk sampleQuery := by
  refine ⟨by decide, by decide, by decide, ?_, ?_⟩
  · intro q hq
    obtain rfl : q = ⟨some [[97], [98, 99]], 28, 1⟩ := by simpa [sampleQuery] using hq
    refine ⟨?_, by decide, by decide⟩
    intro l hl
    rcases (by simpa using hl : l = [97] ∨ l = [98, 99]) with rfl | rfl <;> decide
  · intro r hr
    obtain rfl : r = ⟨none, 41, 1232, 7, some [1, 2]⟩ := by simpa [sampleQuery] using hr
    exact ⟨by intro l hl; simp at hl, by decide, by decide, by decide, by decide⟩

example : buildQueryData sampleQuery false = some ([0x12, 0x34, 1, 0, 0, 1, 0, 0, 0, 0, 0, 1]
    ++ [1, 97, 2, 98, 99, 0, 0, 28, 0, 1] ++ [0, 0, 41, 4, 208, 0, 0, 0, 7, 0, 2, 1, 2]) := by
  decide

/-! ## C44 -/

/-- **C44 violated.** Whatever surrounds it: a name that points at itself is never read to an
end. -/
theorem C44_pointer_violated (data : Bytes) (index : Nat) (high low : UInt8)
    (hh : data[index]? = some high) (hl : data[index + 1]? = some low) (marked : 192 ≤ high.toNat)
    (itself : index = (high.toNat - 192) * 256 + low.toNat) :
    Never (fun fuel => parseLabels fuel data index) := by
  have hround : ∀ labels furthest, labelRound data ⟨labels, index, furthest⟩
      = .again ⟨labels, index, max furthest (index + 2)⟩ := by
    intro labels furthest
    have h1 := high.toNat_lt
    have h2 := low.toNat_lt
    simp only [labelRound, hh, hl]
    rw [if_neg (by omega), if_neg (by omega), if_neg (by omega),
      and_63 _ marked (by omega), shift_or _ _ (by omega), ← itself, if_neg (by omega)]
    congr 2
    omega
  have hloop : ∀ fuel labels furthest, labelLoop data fuel ⟨labels, index, furthest⟩ = none := by
    intro fuel
    induction fuel with
    | zero => intros; rfl
    | succ fuel ih => intro labels furthest; simp only [labelLoop, hround]; exact ih _ _
  intro fuel
  exact hloop fuel _ _

/-- **C44 violated.** Every message that announces a question and whose first name points at
itself keeps `parse_result_data` running for ever. -/
theorem C44_violated (header : Bytes) (rest : Bytes) (hlen : header.length = 12)
    (hcount : fromBytes (slice header 4 6) ≠ 0) :
    Never (fun fuel => parseResultData fuel (header ++ 0xC0 :: 0x0C :: rest)) := by
  intro fuel
  have hnever := C44_pointer_violated (header ++ 0xC0 :: 0x0C :: rest) 12 0xC0 0x0C
    (by simp [hlen]) (by simp [List.getElem?_append, hlen])
    (by decide) (by decide) fuel
  dsimp only at hnever
  have hs : slice (header ++ 0xC0 :: 0x0C :: rest) 4 6 = slice header 4 6 := by
    simp only [slice]
    rw [List.take_append_of_le_length (by omega)]
  have hlong : ¬ (header ++ 0xC0 :: 0x0C :: rest).length < 12 := by simp [hlen]
  obtain ⟨k, hk⟩ : ∃ k, fromBytes (slice header 4 6) = k + 1 :=
    ⟨fromBytes (slice header 4 6) - 1, by omega⟩
  simp only [parseResultData, if_neg hlong, hs, hk, parseMany, parseQuestion, hnever]

/-- A 14 byte datagram with which the violation happens. -/
example : Never (fun fuel => parseResultData fuel
    [0x12, 0x34, 0x81, 0x80, 0, 1, 0, 0, 0, 0, 0, 0, 0xC0, 0x0C]) :=
  C44_violated [0x12, 0x34, 0x81, 0x80, 0, 1, 0, 0, 0, 0, 0, 0] [] rfl (by decide)

/-- **C44 violated.** A pointer that only jumps backwards does not help: one label followed by
a pointer to it is read for ever, too. -/
theorem C44_backwards_violated : Never (fun fuel => parseLabels fuel [1, 97, 0xC0, 0] 0) := by
  have hloop : ∀ fuel, ∀ s : LabelState, s.index = 0 ∨ s.index = 2 →
      labelLoop [1, 97, 0xC0, 0] fuel s = none := by
    intro fuel
    induction fuel with
    | zero => intros; rfl
    | succ fuel ih =>
      intro s hs
      obtain ⟨labels, index, furthest⟩ := s
      rcases hs with hs | hs <;> dsimp only at hs <;> subst hs
      · simp only [labelLoop, labelRound]
        exact ih _ (Or.inr rfl)
      · simp only [labelLoop, labelRound]
        exact ih _ (Or.inl rfl)
  intro fuel
  exact hloop fuel _ (Or.inl rfl)

/-- **C44, partial.** Every byte string either is read (or rejected) with at most as many
rounds per name as it has bytes, plus one, or it is never: more rounds than that change
nothing.  Missing for the full statement: the second case exists (`C44_violated`). -/
theorem C44_bound_partial (data : Bytes) (fuel : Nat) (h : data.length + 1 ≤ fuel) :
    parseResultData fuel data = parseResultData (data.length + 1) data := by
  have hq : parseQuestion fuel data = parseQuestion (data.length + 1) data := by
    funext index
    simp only [parseQuestion, parseLabels_bound data index fuel h]
  have hr : parseResourceRecord fuel data = parseResourceRecord (data.length + 1) data := by
    funext index
    simp only [parseResourceRecord, parseLabels_bound data index fuel h]
  simp only [parseResultData, hq, hr]

theorem parseMany_some {α : Type} {f : Nat → Parsed (α × Nat)} (h : ∀ i, f i ≠ none)
    (count index : Nat) : parseMany f count index ≠ none := by
  induction count generalizing index with
  | zero => simp [parseMany]
  | succ count ih =>
    simp only [parseMany]
    cases hf : f index with
    | none => exact absurd hf (h index)
    | some r =>
      cases r with
      | error e => simp
      | ok r =>
        obtain ⟨element, i⟩ := r
        simp only
        cases hm : parseMany f count i with
        | none => exact absurd hm (ih i)
        | some r => cases r <;> simp

/-- **C44, partial.** A byte string without a byte that could start a pointer is read (or
rejected).  Missing for the full statement: byte strings with pointers. -/
theorem C44_plain_partial (data : Bytes) (h : ∀ byte ∈ data, byte.toNat < 192) :
    ∃ r, Ends (fun fuel => parseResultData fuel data) r := by
  have hl : ∀ index, parseLabels (data.length + 1) data index ≠ none := fun index =>
    labelLoop_plain data h (data.length + 1) _ (by dsimp only; omega) (by omega)
  have hq : ∀ index, parseQuestion (data.length + 1) data index ≠ none := by
    intro index
    simp only [parseQuestion]
    cases hp : parseLabels (data.length + 1) data index with
    | none => exact absurd hp (hl index)
    | some r =>
      cases r with
      | error e => simp
      | ok r => simp only; split <;> simp
  have hr : ∀ index, parseResourceRecord (data.length + 1) data index ≠ none := by
    intro index
    simp only [parseResourceRecord]
    cases hp : parseLabels (data.length + 1) data index with
    | none => exact absurd hp (hl index)
    | some r =>
      cases r with
      | error e => simp
      | ok r => simp only; split <;> (try split) <;> (try split) <;> simp
  have hm : parseResultData (data.length + 1) data ≠ none := by
    unfold parseResultData
    split
    · simp
    · simp only
      cases h1 : parseMany (parseQuestion (data.length + 1) data) (fromBytes (slice data 4 6)) 12 with
      | none => exact absurd h1 (parseMany_some hq _ _)
      | some r1 =>
        cases r1 with
        | error e => simp
        | ok r1 =>
          simp only
          cases h2 : parseMany (parseResourceRecord (data.length + 1) data)
              (fromBytes (slice data 6 8)) r1.2 with
          | none => exact absurd h2 (parseMany_some hr _ _)
          | some r2 =>
            cases r2 with
            | error e => simp
            | ok r2 =>
              simp only
              cases h3 : parseMany (parseResourceRecord (data.length + 1) data)
                  (fromBytes (slice data 8 10)) r2.2 with
              | none => exact absurd h3 (parseMany_some hr _ _)
              | some r3 =>
                cases r3 with
                | error e => simp
                | ok r3 =>
                  simp only
                  cases h4 : parseMany (parseResourceRecord (data.length + 1) data)
                      (fromBytes (slice data 10 12)) r3.2 with
                  | none => exact absurd h4 (parseMany_some hr _ _)
                  | some r4 => cases r4 <;> simp
  cases hres : parseResultData (data.length + 1) data with
  | none => exact absurd hres hm
  | some r =>
    exact ⟨r, data.length + 1, fun fuel hf => (C44_bound_partial data fuel hf).trans hres⟩

example : ∃ r, Ends (fun fuel => parseResultData fuel
    [0x12, 0x34, 0x81, 0x80, 0, 1, 0, 0, 0, 0, 0, 0, 1, 97, 0, 0, 1, 0, 1]) r :=
  C44_plain_partial _ (by decide)

/-! ## C64 -/

/-- **C64.** A name in a message, plain or ending in a pointer to an earlier name, however
deeply nested, is read as the labels RFC 1035 says it has, and the reading goes on right
behind the name. -/
theorem C64_compressed {data : Bytes} {start stop : Nat} {labels : List Bytes}
    (h : Encodes data start labels stop) :
    Ends (fun fuel => parseLabels fuel data start)
      (.ok (if labels = [] then none else some labels, stop)) := by
  have := parseLabels_encodes h
  cases labels with
  | nil => exact this
  | cons label labels => exact this

/-- **C64.** An encoded name has one reading only: the labels and the end are determined by
the bytes. -/
theorem C64_unique {data : Bytes} {start stop stop' : Nat} {labels labels' : List Bytes}
    (h : Encodes data start labels stop) (h' : Encodes data start labels' stop') :
    labels = labels' ∧ stop = stop' := by
  obtain ⟨n, hn⟩ := C64_compressed h
  obtain ⟨m, hm⟩ := C64_compressed h'
  have e1 := hn (max n m) (by omega)
  have e2 := hm (max n m) (by omega)
  dsimp only at e1 e2
  rw [e1] at e2
  injection e2 with e2
  injection e2 with e2
  injection e2 with e2 e3
  refine ⟨?_, e3⟩
  cases labels <;> cases labels' <;> simp_all

/-- `bc` at 0, then `a` followed by a pointer to it at 4. -/
example : Encodes [2, 98, 99, 0, 1, 97, 0xC0, 0] 4 [[97], [98, 99]] 8 :=
  .label (length := 1) rfl rfl (by decide) (by decide) rfl
    (.pointer (high := 0xC0) (low := 0) (target := 0) rfl rfl (by decide) rfl
      (.label (length := 2) rfl rfl (by decide) (by decide) rfl (.root rfl)) (by decide))

example : parseLabels 9 [2, 98, 99, 0, 1, 97, 0xC0, 0] 4 = some (.ok (some [[97], [98, 99]], 8)) := by
  rfl

end Verif.Dns
