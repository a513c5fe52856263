import Verif.Dns.Model

/-!
# DNS messages: reading what was written

`Ends f a` says that a function that is given a number of rounds answers `a` as soon as the
number is large enough.  `Encodes data start labels stop` is the description of an encoded
name by RFC 1035 (3.1 and 4.1.4), independent of the reading loop.
-/

namespace Verif.Dns

/-- Given enough rounds, the answer is `a`. -/
def Ends {α : Type} (f : Nat → Option α) (a : α) : Prop :=
  ∃ enough, ∀ fuel, enough ≤ fuel → f fuel = some a

/-- Whatever the number of rounds, there is no answer. -/
def Never {α : Type} (f : Nat → Option α) : Prop := ∀ fuel, f fuel = none

/-- The bytes of `data` from `start` are a name with the given labels, and the name ends in
front of `stop`: labels of 1 to 63 bytes behind their length, closed by a zero byte or by a
pointer (two bytes, the upper two bits set) to a name that ends at or in front of the
pointer. -/
inductive Encodes (data : Bytes) : Nat → List Bytes → Nat → Prop
  | root {start : Nat} (zero : data[start]? = some 0) : Encodes data start [] (start + 1)
  | label {start stop : Nat} {label : Bytes} {labels : List Bytes} {length : UInt8}
      (isLength : data[start]? = some length) (equals : length.toNat = label.length)
      (positive : 0 < label.length) (short : label.length < 64)
      (text : (data.drop (start + 1)).take label.length = label)
      (rest : Encodes data (start + 1 + label.length) labels stop) :
      Encodes data start (label :: labels) stop
  | pointer {start target stop : Nat} {labels : List Bytes} {high low : UInt8}
      (isHigh : data[start]? = some high) (isLow : data[start + 1]? = some low)
      (marked : 192 ≤ high.toNat)
      (points : target = (high.toNat - 192) * 256 + low.toNat)
      (named : Encodes data target labels stop) (before : stop ≤ start) :
      Encodes data start labels (start + 2)

theorem Encodes.lt {data : Bytes} {start stop : Nat} {labels : List Bytes}
    (h : Encodes data start labels stop) : start < stop := by
  induction h with
  | root => omega
  | label _ _ _ _ _ _ ih => omega
  | pointer => omega

/-! ### Numbers -/

theorem be_length (width n : Nat) : (be width n).length = width := by
  induction width generalizing n with
  | zero => rfl
  | succ width ih => simp [be, ih]

theorem fromBytes_be (width n : Nat) (h : n < 256 ^ width) : fromBytes (be width n) = n := by
  induction width generalizing n with
  | zero => simp only [Nat.pow_zero] at h; simp only [be, fromBytes, List.foldl_nil]; omega
  | succ width ih =>
    have hd : n / 256 < 256 ^ width := by
      rw [Nat.div_lt_iff_lt_mul (by decide)]
      rw [Nat.pow_succ] at h
      exact h
    have hi := ih (n / 256) hd
    unfold fromBytes at hi ⊢
    simp only [be, List.foldl_append, hi, List.foldl_cons, List.foldl_nil]
    rw [UInt8.toNat_ofNat']
    omega

theorem toBytes_some {width n : Nat} (h : n < 256 ^ width) :
    toBytes width n = some (be width n) := by
  simp only [toBytes, if_pos h]

theorem slice_mid (pre mid post : Bytes) (start stop : Nat) (hs : start = pre.length)
    (he : stop = pre.length + mid.length) : slice (pre ++ (mid ++ post)) start stop = mid := by
  subst hs he
  simp [slice, List.take_append]

/-! ### Names -/

theorem and_63 (n : Nat) (h : 192 ≤ n) (h' : n < 256) : n &&& 0x3f = n - 192 := by
  have : n &&& 0x3f = n % 64 := Nat.and_two_pow_sub_one_eq_mod n 6
  omega

theorem shift_or (high low : Nat) (h : low < 256) : (high <<< 8) ||| low = high * 256 + low := by
  rw [← Nat.shiftLeft_add_eq_or_of_lt (i := 8) (by simpa using h)]
  simp [Nat.shiftLeft_eq]

theorem drop_take_slice (data : Bytes) (start length : Nat) :
    slice data start (start + length) = (data.drop start).take length := by
  simp only [slice]
  rw [List.drop_take]
  congr 1
  omega

/-- The labels the loop has collected after a name. -/
def collected (labels : Option (List Bytes)) (more : List Bytes) : Option (List Bytes) :=
  match more with
  | [] => labels
  | more => some (labels.getD [] ++ more)

theorem collected_cons (labels : Option (List Bytes)) (label : Bytes) (more : List Bytes) :
    collected (some (labels.getD [] ++ [label])) more = collected labels (label :: more) := by
  cases more <;> simp [collected]

/-- The loop reads an encoded name, whatever was read before it. -/
theorem labelLoop_encodes {data : Bytes} {start stop : Nat} {labels : List Bytes}
    (h : Encodes data start labels stop) (acc : Option (List Bytes)) (furthest : Nat) :
    Ends (fun fuel => labelLoop data fuel ⟨acc, start, furthest⟩)
      (.ok (collected acc labels, max furthest stop)) := by
  induction h generalizing acc furthest with
  | root zero =>
    refine ⟨1, fun fuel hf => ?_⟩
    obtain ⟨fuel, rfl⟩ : ∃ k, fuel = k + 1 := ⟨fuel - 1, by omega⟩
    simp [labelLoop, labelRound, zero, collected]
  | @label start stop label labels length isLength equals positive short text rest ih =>
    obtain ⟨n, hn⟩ := ih (some (acc.getD [] ++ [label])) (max furthest (start + 1))
    have hstop := rest.lt
    have hin : start + 1 + label.length ≤ data.length := by
      have := congrArg List.length text
      simp only [List.length_take, List.length_drop] at this
      omega
    refine ⟨n + 1, fun fuel hf => ?_⟩
    obtain ⟨fuel, rfl⟩ : ∃ k, fuel = k + 1 := ⟨fuel - 1, by omega⟩
    have hround : labelRound data ⟨acc, start, furthest⟩
        = .again ⟨some (acc.getD [] ++ [label]), start + 1 + label.length,
            max furthest (start + 1)⟩ := by
      simp only [labelRound, isLength, equals]
      rw [if_neg (by omega), if_pos short, if_neg (by omega), drop_take_slice, text]
    have := hn fuel (by omega)
    dsimp only at this
    simp only [labelLoop, hround]
    rw [this, collected_cons]
    congr 3
    omega
  | @pointer start target stop labels high low isHigh isLow marked points named before ih =>
    obtain ⟨n, hn⟩ := ih acc (max furthest (start + 2))
    have ht := named.lt
    refine ⟨n + 1, fun fuel hf => ?_⟩
    obtain ⟨fuel, rfl⟩ : ∃ k, fuel = k + 1 := ⟨fuel - 1, by omega⟩
    have hround : labelRound data ⟨acc, start, furthest⟩
        = .again ⟨acc, target, max furthest (start + 2)⟩ := by
      have hh := high.toNat_lt
      have hl := low.toNat_lt
      simp only [labelRound, isHigh, isLow]
      rw [if_neg (by omega), if_neg (by omega), if_neg (by omega),
        and_63 _ marked (by omega), shift_or _ _ (by omega), ← points, if_neg (by omega)]
      congr 2
      omega
    have := hn fuel (by omega)
    dsimp only at this
    simp only [labelLoop, hround]
    rw [this]
    congr 3
    omega

/-- The reading of a name gives its labels and the position behind it. -/
theorem parseLabels_encodes {data : Bytes} {start stop : Nat} {labels : List Bytes}
    (h : Encodes data start labels stop) :
    Ends (fun fuel => parseLabels fuel data start) (.ok (tupleOrNone labels, stop)) := by
  have := labelLoop_encodes h none start
  have hs := h.lt
  rw [show max start stop = stop by omega] at this
  have hc : collected none labels = tupleOrNone labels := by cases labels <;> simp [collected, tupleOrNone]
  rw [hc] at this
  exact this

/-- What is written for labels of 1 to 63 bytes is an encoded name. -/
theorem buildLabels_encodes (labels : List Bytes) (pre post : Bytes)
    (h : ∀ label ∈ labels, 0 < label.length ∧ label.length < 64) :
    ∃ text, buildLabels labels = some text ∧
      Encodes (pre ++ (text ++ 0 :: post)) pre.length labels (pre.length + text.length + 1) := by
  induction labels generalizing pre with
  | nil => exact ⟨[], rfl, .root (by simp)⟩
  | cons label labels ih =>
    obtain ⟨hp, hs⟩ := h label (by simp)
    have hl : label.length < 256 ^ 1 := by omega
    have hb : be 1 label.length = [UInt8.ofNat label.length] := by
      simp only [be, List.nil_append]
      rw [Nat.mod_eq_of_lt (by omega)]
    obtain ⟨text, ht, he⟩ := ih (pre ++ UInt8.ofNat label.length :: label)
      (fun l hl => h l (by simp [hl]))
    refine ⟨UInt8.ofNat label.length :: (label ++ text), ?_, ?_⟩
    · simp [buildLabels, toBytes_some hl, ht, hb]
    · have e1 : pre ++ UInt8.ofNat label.length :: label ++ (text ++ 0 :: post)
          = pre ++ (UInt8.ofNat label.length :: (label ++ text) ++ 0 :: post) := by simp
      rw [e1] at he
      refine .label (length := UInt8.ofNat label.length) (by simp) ?_ hp hs ?_ ?_
      · rw [UInt8.toNat_ofNat']; omega
      · have hd : List.drop (pre.length + 1) pre = [] := List.drop_of_length_le (by omega)
        simp [List.drop_append, hd]
      · simp only [List.length_append, List.length_cons] at he ⊢
        rw [show pre.length + (label.length + 1) = pre.length + 1 + label.length by omega] at he
        rw [show pre.length + (label.length + text.length + 1) + 1
          = pre.length + 1 + label.length + text.length + 1 by omega]
        exact he

/-! ### Questions and records -/

/-- The value without the difference between `None` and an empty tuple. -/
def present {α : Type} : Option (List α) → Option (List α)
  | some (first :: rest) => some (first :: rest)
  | _ => none

theorem tupleOrNone_getD {α : Type} (o : Option (List α)) :
    tupleOrNone (o.getD []) = present o := by
  cases o with
  | none => rfl
  | some l => cases l <;> rfl

/-- Labels that can be written and read back: `None` or labels of 1 to 63 bytes. -/
def LabelsOk (labels : Option (List Bytes)) : Prop :=
  ∀ label ∈ labels.getD [], 0 < label.length ∧ label.length < 64

/-- A question with valid labels and 16 bit fields. -/
structure QuestionOk (q : Question) : Prop where
  labels : LabelsOk q.labels
  type : q.resourceRecordType < 65536
  classCode : q.classCode < 65536

/-- A resource record with valid labels, 16 bit fields, a 32 bit duration and data that a 16
bit length can describe. -/
structure RecordOk (r : ResourceRecord) : Prop where
  labels : LabelsOk r.labels
  type : r.resourceRecordType < 65536
  classCode : r.classCode < 65536
  validity : r.validityDuration < 4294967296
  data : (r.data.getD []).length < 65536

/-- The question as it is read: no difference between `None` and an empty tuple. -/
def Question.read (q : Question) : Question := { q with labels := present q.labels }

/-- The record as it is read: no difference between `None` and something empty. -/
def ResourceRecord.read (r : ResourceRecord) : ResourceRecord :=
  { r with labels := present r.labels, data := present r.data }

theorem buildQuestion_ends (q : Question) (h : QuestionOk q) : ∃ text, buildQuestion q = some text ∧
    ∀ pre post, Ends (fun fuel => parseQuestion fuel (pre ++ (text ++ post)) pre.length)
      (.ok (q.read, pre.length + text.length)) := by
  obtain ⟨labels, hl, -⟩ := buildLabels_encodes (q.labels.getD []) [] [] h.labels
  have ht : q.resourceRecordType < 256 ^ 2 := h.type
  have hc : q.classCode < 256 ^ 2 := h.classCode
  refine ⟨labels ++ [0] ++ be 2 q.resourceRecordType ++ be 2 q.classCode, ?_, ?_⟩
  · simp [buildQuestion, hl, toBytes_some ht, toBytes_some hc]
  · intro pre post
    obtain ⟨labels', hl', he⟩ := buildLabels_encodes (q.labels.getD []) pre
      (be 2 q.resourceRecordType ++ (be 2 q.classCode ++ post)) h.labels
    obtain rfl : labels = labels' := by rw [hl] at hl'; exact Option.some.inj hl'
    have e1 : pre ++ (labels ++ [0] ++ be 2 q.resourceRecordType ++ be 2 q.classCode ++ post)
        = pre ++ (labels ++ 0 :: (be 2 q.resourceRecordType ++ (be 2 q.classCode ++ post))) := by
      simp
    rw [e1]
    obtain ⟨n, hn⟩ := parseLabels_encodes he
    refine ⟨n, fun fuel hf => ?_⟩
    have hp := hn fuel hf
    dsimp only at hp
    simp only [parseQuestion, hp]
    have s1 := slice_mid (pre ++ labels ++ [0]) (be 2 q.resourceRecordType) (be 2 q.classCode ++ post)
      (pre.length + labels.length + 1) (pre.length + labels.length + 1 + 2) (by simp; omega)
      (by simp [be_length]; omega)
    have s2 := slice_mid (pre ++ labels ++ [0] ++ be 2 q.resourceRecordType) (be 2 q.classCode) post
      (pre.length + labels.length + 1 + 2) (pre.length + labels.length + 1 + 4)
      (by simp [be_length]; omega) (by simp [be_length]; omega)
    have e2 : pre ++ labels ++ [0] ++ (be 2 q.resourceRecordType ++ (be 2 q.classCode ++ post))
        = pre ++ (labels ++ 0 :: (be 2 q.resourceRecordType ++ (be 2 q.classCode ++ post))) := by
      simp
    have e3 : pre ++ labels ++ [0] ++ be 2 q.resourceRecordType ++ (be 2 q.classCode ++ post)
        = pre ++ (labels ++ 0 :: (be 2 q.resourceRecordType ++ (be 2 q.classCode ++ post))) := by
      simp
    rw [e2] at s1
    rw [e3] at s2
    rw [s1, s2, fromBytes_be _ _ ht, fromBytes_be _ _ hc, if_neg]
    · rw [tupleOrNone_getD]
      simp only [List.length_append, be_length, List.length_cons, List.length_nil, Question.read]
      congr 3
    · simp only [List.length_append, be_length, List.length_cons]
      omega

theorem buildResourceRecord_ends (r : ResourceRecord) (h : RecordOk r) :
    ∃ text, buildResourceRecord r = some text ∧
    ∀ pre post, Ends (fun fuel => parseResourceRecord fuel (pre ++ (text ++ post)) pre.length)
      (.ok (r.read, pre.length + text.length)) := by
  obtain ⟨labels, hl, -⟩ := buildLabels_encodes (r.labels.getD []) [] [] h.labels
  have ht : r.resourceRecordType < 256 ^ 2 := h.type
  have hc : r.classCode < 256 ^ 2 := h.classCode
  have hv : r.validityDuration < 256 ^ 4 := h.validity
  have hd : (r.data.getD []).length < 256 ^ 2 := h.data
  refine ⟨labels ++ [0] ++ be 2 r.resourceRecordType ++ be 2 r.classCode
    ++ be 4 r.validityDuration ++ be 2 (r.data.getD []).length ++ r.data.getD [], ?_, ?_⟩
  · simp [buildResourceRecord, hl, toBytes_some ht, toBytes_some hc, toBytes_some hv,
      toBytes_some hd]
  · intro pre post
    generalize hA : be 2 r.resourceRecordType = A
    generalize hB : be 2 r.classCode = B
    generalize hC : be 4 r.validityDuration = C
    generalize hD : be 2 (r.data.getD []).length = D
    generalize hE : r.data.getD [] = E
    have la : A.length = 2 := by rw [← hA, be_length]
    have lb : B.length = 2 := by rw [← hB, be_length]
    have lc : C.length = 4 := by rw [← hC, be_length]
    have ld : D.length = 2 := by rw [← hD, be_length]
    have va : fromBytes A = r.resourceRecordType := by rw [← hA, fromBytes_be _ _ ht]
    have vb : fromBytes B = r.classCode := by rw [← hB, fromBytes_be _ _ hc]
    have vc : fromBytes C = r.validityDuration := by rw [← hC, fromBytes_be _ _ hv]
    have vd : fromBytes D = E.length := by rw [← hD, fromBytes_be _ _ hd, hE]
    obtain ⟨labels', hl', he⟩ := buildLabels_encodes (r.labels.getD []) pre
      (A ++ (B ++ (C ++ (D ++ (E ++ post))))) h.labels
    obtain rfl : labels = labels' := by rw [hl] at hl'; exact Option.some.inj hl'
    generalize hW : pre ++ (labels ++ 0 :: (A ++ (B ++ (C ++ (D ++ (E ++ post)))))) = W at he
    have e1 : pre ++ (labels ++ [0] ++ A ++ B ++ C ++ D ++ E ++ post) = W := by
      rw [← hW]; simp
    rw [e1]
    obtain ⟨n, hn⟩ := parseLabels_encodes he
    refine ⟨n, fun fuel hf => ?_⟩
    have hp := hn fuel hf
    dsimp only at hp
    simp only [parseResourceRecord, hp]
    have hlen : W.length = pre.length + labels.length + 1 + 10 + E.length + post.length := by
      rw [← hW]; simp only [List.length_append, List.length_cons]; omega
    have s1 : slice W (pre.length + labels.length + 1) (pre.length + labels.length + 1 + 2) = A := by
      have := slice_mid (pre ++ labels ++ [0]) A (B ++ (C ++ (D ++ (E ++ post))))
        (pre.length + labels.length + 1) (pre.length + labels.length + 1 + 2)
        (by simp; omega) (by simp; omega)
      rw [← this, ← hW]; simp
    have s2 : slice W (pre.length + labels.length + 1 + 2) (pre.length + labels.length + 1 + 4) = B := by
      have := slice_mid (pre ++ labels ++ [0] ++ A) B (C ++ (D ++ (E ++ post)))
        (pre.length + labels.length + 1 + 2) (pre.length + labels.length + 1 + 4)
        (by simp; omega) (by simp; omega)
      rw [← this, ← hW]; simp
    have s3 : slice W (pre.length + labels.length + 1 + 4) (pre.length + labels.length + 1 + 8) = C := by
      have := slice_mid (pre ++ labels ++ [0] ++ A ++ B) C (D ++ (E ++ post))
        (pre.length + labels.length + 1 + 4) (pre.length + labels.length + 1 + 8)
        (by simp; omega) (by simp; omega)
      rw [← this, ← hW]; simp
    have s4 : slice W (pre.length + labels.length + 1 + 8) (pre.length + labels.length + 1 + 10) = D := by
      have := slice_mid (pre ++ labels ++ [0] ++ A ++ B ++ C) D (E ++ post)
        (pre.length + labels.length + 1 + 8) (pre.length + labels.length + 1 + 10)
        (by simp; omega) (by simp; omega)
      rw [← this, ← hW]; simp
    have s5 : slice W (pre.length + labels.length + 1 + 10)
        (pre.length + labels.length + 1 + 10 + E.length) = E := by
      have := slice_mid (pre ++ labels ++ [0] ++ A ++ B ++ C ++ D) E post
        (pre.length + labels.length + 1 + 10) (pre.length + labels.length + 1 + 10 + E.length)
        (by simp; omega) (by simp; omega)
      rw [show pre ++ labels ++ [0] ++ A ++ B ++ C ++ D ++ (E ++ post) = W by
        rw [← hW]; simp] at this
      exact this
    rw [s1, s2, s3, s4, va, vb, vc, vd, if_neg (by omega), tupleOrNone_getD]
    have hlast : pre.length + (labels ++ [0] ++ A ++ B ++ C ++ D ++ E).length
        = pre.length + labels.length + 1 + 10 + E.length := by
      simp only [List.length_append, List.length_cons, List.length_nil]; omega
    rw [hlast]
    have hread : present r.data = tupleOrNone E := by rw [← hE, tupleOrNone_getD]
    cases hcase : E with
    | nil =>
      rw [if_pos (by simp)]
      rw [hcase] at hread
      simp only [ResourceRecord.read, hread, tupleOrNone, List.length_nil, Nat.add_zero]
    | cons first rest =>
      rw [← hcase, if_neg (by simp [hcase]), if_neg (by omega), s5]
      rw [hcase] at hread
      simp only [ResourceRecord.read, hread, tupleOrNone, hcase]

/-- The counted loops read back what the `for` loops wrote. -/
theorem buildAll_ends {α : Type} (build : α → Option Bytes)
    (parse : Nat → Bytes → Nat → Parsed (α × Nat)) (read : α → α) (elements : List α)
    (h : ∀ element ∈ elements, ∃ text, build element = some text ∧
      ∀ pre post, Ends (fun fuel => parse fuel (pre ++ (text ++ post)) pre.length)
        (.ok (read element, pre.length + text.length))) :
    ∃ text, buildAll build elements = some text ∧
      ∀ pre post, Ends
        (fun fuel => parseMany (parse fuel (pre ++ (text ++ post))) elements.length pre.length)
        (.ok (elements.map read, pre.length + text.length)) := by
  induction elements with
  | nil => exact ⟨[], rfl, fun pre post => ⟨0, fun fuel _ => by simp [parseMany]⟩⟩
  | cons element elements ih =>
    obtain ⟨first, hf, hfirst⟩ := h element (by simp)
    obtain ⟨rest, hr, hrest⟩ := ih (fun e he => h e (by simp [he]))
    refine ⟨first ++ rest, by simp [buildAll, hf, hr], fun pre post => ?_⟩
    obtain ⟨n, hn⟩ := hfirst pre (rest ++ post)
    obtain ⟨m, hm⟩ := hrest (pre ++ first) post
    refine ⟨max n m, fun fuel hfuel => ?_⟩
    have h1 := hn fuel (by omega)
    have h2 := hm fuel (by omega)
    dsimp only at h1 h2
    rw [show pre ++ (first ++ (rest ++ post)) = pre ++ (first ++ rest ++ post) by simp] at h1
    rw [show pre ++ first ++ (rest ++ post) = pre ++ (first ++ rest ++ post) by simp,
      List.length_append] at h2
    simp only [List.length_cons, parseMany, h1, h2, List.map_cons, List.length_append]
    congr 3
    omega

end Verif.Dns
