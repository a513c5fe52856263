import Verif.Equality.Model

/-!
# C279–C284: equality and hashes
-/

namespace Verif.Equality

/-! ## C279 -/

/-- **C279.** Two connection keys are equal exactly if they agree on host, port, proxy, security,
context and fingerprint, and then their hashes are equal. -/
theorem C279_connection_key (H : Hashes) (a b : ConnectionKey) :
    (a.eq b = true ↔ a.host = b.host ∧ a.port = b.port ∧ a.proxy = b.proxy ∧ a.secure = b.secure ∧
      a.sslContext = b.sslContext ∧ a.sslFingerprint = b.sslFingerprint) ∧
    (a.eq b = true → a.hash H = b.hash H) := by
  have key : a.eq b = true ↔ a = b := by
    cases a; cases b
    unfold ConnectionKey.eq
    (repeat' split) <;> simp_all
  refine ⟨?_, fun h => by rw [key.1 h]⟩
  rw [key]
  cases a; cases b
  simp

/-- **C279.** Two host infos are equal exactly if they agree on all parts, and then their hashes are
equal. -/
theorem C279_host_info (H : Hashes) (a b : HostInfo) :
    (a.eq b = true ↔ a.family = b.family ∧ a.flags = b.flags ∧ a.host = b.host ∧
      a.hostName = b.hostName ∧ a.port = b.port ∧ a.protocol = b.protocol) ∧
    (a.eq b = true → a.hash H = b.hash H) := by
  have key : a.eq b = true ↔ a = b := by
    cases a; cases b
    unfold HostInfo.eq
    (repeat' split) <;> simp_all
  refine ⟨?_, fun h => by rw [key.1 h]⟩
  rw [key]
  cases a; cases b
  simp

/-- **C279.** Two credentials are equal exactly if they agree on encoding, password and user, and then
their hashes are equal. -/
theorem C279_credentials (H : Hashes) (default : Nat) (a b : BasicAuthorization) :
    (a.eq b = true ↔ a.encoding = b.encoding ∧ a.password = b.password ∧ a.userId = b.userId) ∧
    (a.eq b = true → a.hash H default = b.hash H default) := by
  have key : a.eq b = true ↔ a = b := by
    cases a; cases b
    unfold BasicAuthorization.eq
    (repeat' split) <;> simp_all
  refine ⟨?_, fun h => by rw [key.1 h]⟩
  rw [key]
  cases a; cases b
  simp

/-- **C279.** Two keep alive infos are equal exactly if they agree on both numbers, and then their hashes
are equal. -/
theorem C279_keep_alive (H : Hashes) (d m : Nat) (a b : KeepAliveInfo) :
    (a.eq b = true ↔ a.timeout = b.timeout ∧ a.maxRequests = b.maxRequests) ∧
    (a.eq b = true → a.hash H d m = b.hash H d m) := by
  have key : a.eq b = true ↔ a = b := by
    cases a; cases b
    unfold KeepAliveInfo.eq
    (repeat' split) <;> simp_all
  refine ⟨?_, fun h => by rw [key.1 h]⟩
  rw [key]
  cases a; cases b
  simp

example : ConnectionKey.eq ⟨1, 80, none, false, none, none⟩ ⟨1, 80, some 2, false, none, none⟩ = false ∧
    ConnectionKey.eq ⟨1, 443, some 2, true, some 3, none⟩ ⟨1, 443, some 2, true, some 3, none⟩ = true := by
  decide

/-! ## C280 -/

/-- **C280.** Two questions are equal exactly if they agree on labels, type and class, and then their
hashes are equal. -/
theorem C280_question (H : Hashes) (a b : Question) :
    (a.eq b = true ↔ a.labels = b.labels ∧ a.type = b.type ∧ a.classCode = b.classCode) ∧
    (a.eq b = true → a.hash H = b.hash H) := by
  have key : a.eq b = true ↔ a = b := by
    cases a; cases b
    unfold Question.eq
    (repeat' split) <;> simp_all
  refine ⟨?_, fun h => by rw [key.1 h]⟩
  rw [key]
  cases a; cases b
  simp

/-- **C280.** So it is with resource records. -/
theorem C280_resource_record (H : Hashes) (a b : ResourceRecord) :
    (a.eq b = true ↔ a.labels = b.labels ∧ a.type = b.type ∧ a.classCode = b.classCode ∧
      a.validity = b.validity ∧ a.data = b.data) ∧
    (a.eq b = true → a.hash H = b.hash H) := by
  have key : a.eq b = true ↔ a = b := by
    cases a; cases b
    unfold ResourceRecord.eq
    (repeat' split) <;> simp_all
  refine ⟨?_, fun h => by rw [key.1 h]⟩
  rw [key]
  cases a; cases b
  simp

/-- **C280.** So it is with queries. -/
theorem C280_query (H : Hashes) (a b : Query) :
    (a.eq b = true ↔ a.transaction = b.transaction ∧ a.recursion = b.recursion ∧
      a.verification = b.verification ∧ a.questions = b.questions ∧ a.additional = b.additional) ∧
    (a.eq b = true → a.hash H = b.hash H) := by
  have key : a.eq b = true ↔ a = b := by
    cases a; cases b
    unfold Query.eq
    (repeat' split) <;> simp_all
  refine ⟨?_, fun h => by rw [key.1 h]⟩
  rw [key]
  cases a; cases b
  simp

/-- **C280.** So it is with results. -/
theorem C280_result (H : Hashes) (a b : Result) :
    (a.eq b = true ↔ a.transaction = b.transaction ∧ a.verified = b.verified ∧
      a.truncated = b.truncated ∧ a.recursion = b.recursion ∧ a.code = b.code ∧
      a.questions = b.questions ∧ a.answers = b.answers ∧ a.authority = b.authority ∧
      a.additional = b.additional) ∧
    (a.eq b = true → a.hash H = b.hash H) := by
  have key : a.eq b = true ↔ a = b := by
    cases a; cases b
    unfold Result.eq
    (repeat' split) <;> simp_all
  refine ⟨?_, fun h => by rw [key.1 h]⟩
  rw [key]
  cases a; cases b
  simp

/-- **C280, violated.** The hash of a result tells nothing: all results have the same, so that a set or
dictionary of results is searched one by one. -/
theorem C280_result_hash_constant_violated (H : Hashes) (a b : Result) : a.hash H = b.hash H := rfl

example : Question.eq ⟨some 1, 1, 1⟩ ⟨some 1, 28, 1⟩ = false ∧
    (Question.mk (some 3) 1 1).hash ⟨fun x => x, fun _ => 0⟩ = 1 ^^^ 3 ^^^ 2 ^^^ 32 := by decide

/-! ## C281 -/

/-- Lower case of ASCII letters. -/
def lower (t : Text) : Text := t.map (fun c => if 65 ≤ c ∧ c ≤ 90 then c + 32 else c)

/-- **C281, violated.** Two request infos which are equal, one with the headers `B` and `a`, one with
`b` and `a`: their frozen headers are in another order, so that their hashes differ unless by
chance. -/
theorem C281_equal_requests_other_hash_violated (v w : Text) (m o u : Nat) :
    RequestInfo.eq lower ⟨[([66], [v]), ([97], [w])], m, o, u⟩ ⟨[([98], [v]), ([97], [w])], m, o, u⟩ = true ∧
      ∀ (H : Hashes) (hf : List (Text × List Text) → Nat), (∀ x y, hf x = hf y → x = y) →
        RequestInfo.hash lower H hf ⟨[([66], [v]), ([97], [w])], m, o, u⟩ ≠
          RequestInfo.hash lower H hf ⟨[([98], [v]), ([97], [w])], m, o, u⟩ := by
  constructor
  · simp [RequestInfo.eq, headersEq, lower]
  · intro H hf hinj h
    have key : hf (freeze lower [([66], [v]), ([97], [w])]) = hf (freeze lower [([98], [v]), ([97], [w])]) := by
      unfold RequestInfo.hash at h
      simp only [ne_eq, reduceCtorEq, not_false_eq_true, if_true] at h
      have hx : ∀ p q r : Nat, p ^^^ r = q ^^^ r → p = q := by
        intro p q r hpq
        have := congrArg (· ^^^ r) hpq
        simpa [Nat.xor_assoc] using this
      split at h
      · have := hx _ _ _ (hx _ _ _ (hx _ _ _ h)); simpa using this
      · have := hx _ _ _ (hx _ _ _ h); simpa using this
    have := hinj _ _ key
    have e1 : freeze lower [([66], [v]), ([97], [w])] = [([98], [v]), ([97], [w])] := by
      have h1 : ([66] : List Nat) ≤ [97] := by decide
      simp [freeze, sorted, insert, h1, lower]
    have e2 : freeze lower [([98], [v]), ([97], [w])] = [([97], [w]), ([98], [v])] := by
      have h1 : ¬ ([98] : List Nat) ≤ [97] := by decide
      simp [freeze, sorted, insert, h1, lower]
    rw [e1, e2] at this
    simp at this

/-- Sorted by name, strictly. -/
def Ordered (hs : Headers) : Prop := hs.Pairwise (fun x y => x.1 < y.1)

theorem mem_insert (x z : Text × List Text) (hs : Headers) : z ∈ insert x hs ↔ z = x ∨ z ∈ hs := by
  induction hs with
  | nil => simp [insert]
  | cons y ys ih =>
    unfold insert
    split
    · simp
    · simp only [List.mem_cons, ih]; grind

theorem mem_sorted (z : Text × List Text) (hs : Headers) : z ∈ sorted hs ↔ z ∈ hs := by
  induction hs with
  | nil => simp [sorted]
  | cons y ys ih => simp only [sorted, mem_insert, List.mem_cons, ih]

theorem ordered_insert (x : Text × List Text) (hs : Headers) (h : Ordered hs)
    (hx : ∀ y ∈ hs, x.1 ≠ y.1) : Ordered (insert x hs) := by
  induction hs with
  | nil => simp [insert, Ordered]
  | cons y ys ih =>
    have hy := List.pairwise_cons.1 h
    unfold insert
    split
    · rename_i hle
      have hlt : x.1 < y.1 := by
        rcases List.le_iff_lt_or_eq.1 hle with h' | h'
        · exact h'
        · exact absurd h' (hx y List.mem_cons_self)
      refine List.pairwise_cons.2 ⟨?_, h⟩
      intro z hz
      rcases List.mem_cons.1 hz with rfl | hz
      · exact hlt
      · exact List.lt_trans hlt (hy.1 z hz)
    · rename_i hle
      have hlt : y.1 < x.1 := by
        apply Classical.byContradiction
        intro hn
        exact hle (List.not_lt.1 hn)
      refine List.pairwise_cons.2 ⟨?_, ih hy.2 (fun z hz => hx z (List.mem_cons_of_mem _ hz))⟩
      intro z hz
      rcases (mem_insert x z ys).1 hz with rfl | hz
      · exact hlt
      · exact hy.1 z hz

theorem ordered_sorted (hs : Headers) (h : (hs.map (fun x => x.1)).Nodup) : Ordered (sorted hs) := by
  induction hs with
  | nil => simp [sorted, Ordered]
  | cons x xs ih =>
    rw [List.map_cons, List.nodup_cons] at h
    refine ordered_insert x _ (ih h.2) ?_
    intro y hy he
    apply h.1
    rw [he]
    exact List.mem_map.2 ⟨y, (mem_sorted y xs).1 hy, rfl⟩

/-- Two strictly sorted lists with the same members are equal. -/
theorem ordered_ext : ∀ (a b : Headers), Ordered a → Ordered b → (∀ z, z ∈ a ↔ z ∈ b) → a = b
  | [], [], _, _, _ => rfl
  | [], y :: ys, _, _, h => by have := (h y).2 List.mem_cons_self; cases this
  | x :: xs, [], _, _, h => by have := (h x).1 List.mem_cons_self; cases this
  | x :: xs, y :: ys, ha, hb, h => by
    have ha' := List.pairwise_cons.1 ha
    have hb' := List.pairwise_cons.1 hb
    have hxy : x = y := by
      rcases List.mem_cons.1 ((h x).1 List.mem_cons_self) with e | hx
      · exact e
      · rcases List.mem_cons.1 ((h y).2 List.mem_cons_self) with e | hy
        · exact e.symm
        · exact absurd (hb'.1 x hx) (List.lt_asymm (ha'.1 y hy))
    subst hxy
    congr 1
    apply ordered_ext xs ys ha'.2 hb'.2
    intro z
    constructor
    · intro hz
      rcases List.mem_cons.1 ((h z).1 (List.mem_cons_of_mem _ hz)) with e | hz'
      · subst e; exact absurd (ha'.1 z hz) (List.lt_irrefl _)
      · exact hz'
    · intro hz
      rcases List.mem_cons.1 ((h z).2 (List.mem_cons_of_mem _ hz)) with e | hz'
      · subst e; exact absurd (hb'.1 z hz) (List.lt_irrefl _)
      · exact hz'

/-- As many members, all found: the same members. -/
theorem mem_of_length {α : Type} [DecidableEq α] : ∀ (a b : List α), a.Nodup → (∀ x ∈ a, x ∈ b) →
    b.length ≤ a.length → ∀ x ∈ b, x ∈ a
  | [], b, _, _, hl, x, hx => by
    have : b = [] := List.length_eq_zero_iff.1 (Nat.le_zero.1 hl)
    rw [this] at hx
    exact hx
  | y :: ys, b, hn, hs, hl, x, hx => by
    have hy := hs y List.mem_cons_self
    rw [List.nodup_cons] at hn
    have hlen : (b.erase y).length ≤ ys.length := by
      rw [List.length_erase_of_mem hy]
      simp only [List.length_cons] at hl
      omega
    have hsub : ∀ z ∈ ys, z ∈ b.erase y := by
      intro z hz
      have hne : z ≠ y := fun e => hn.1 (e ▸ hz)
      exact (List.mem_erase_of_ne hne).2 (hs z (List.mem_cons_of_mem _ hz))
    by_cases e : x = y
    · exact e ▸ List.mem_cons_self
    · exact List.mem_cons_of_mem _ (mem_of_length ys (b.erase y) hn.2 hsub hlen x
        ((List.mem_erase_of_ne e).2 hx))

theorem nodup_of_map {α β : Type} (f : α → β) (l : List α) (h : (l.map f).Nodup) : l.Nodup := by
  induction l with
  | nil => exact List.nodup_nil
  | cons x xs ih =>
    rw [List.map_cons, List.nodup_cons] at h
    rw [List.nodup_cons]
    exact ⟨fun hx => h.1 (List.mem_map.2 ⟨x, hx, rfl⟩), ih h.2⟩

/-- Headers whose names are folded already, and equal, freeze to the same. -/
theorem freeze_eq (fold : Text → Text) (a b : Headers) (hua : Unique fold a) (hub : Unique fold b)
    (hfa : ∀ x ∈ a, fold x.1 = x.1) (hfb : ∀ x ∈ b, fold x.1 = x.1) (h : headersEq fold a b = true) :
    freeze fold a = freeze fold b := by
  unfold headersEq at h
  rw [Bool.and_eq_true] at h
  have hlen : a.length = b.length := by simpa using h.1
  have hsub : ∀ x ∈ a, x ∈ b := by
    intro x hx
    have := List.all_eq_true.1 h.2 x hx
    obtain ⟨y, hy, he⟩ := List.any_eq_true.1 this
    rw [Bool.and_eq_true] at he
    have e1 : fold x.1 = fold y.1 := by simpa using he.1
    have e2 : x.2 = y.2 := by simpa using he.2
    rw [hfa x hx, hfb y hy] at e1
    have : x = y := Prod.ext e1 e2
    exact this ▸ hy
  have hback := mem_of_length a b (nodup_of_map _ a hua) hsub (by omega)
  have hka : (a.map (fun x => x.1)).Nodup := by
    have : a.map (fun x => x.1) = a.map (fun x => fold x.1) :=
      List.map_congr_left (fun x hx => (hfa x hx).symm)
    rw [this]; exact hua
  have hkb : (b.map (fun x => x.1)).Nodup := by
    have : b.map (fun x => x.1) = b.map (fun x => fold x.1) :=
      List.map_congr_left (fun x hx => (hfb x hx).symm)
    rw [this]; exact hub
  have : sorted a = sorted b := ordered_ext _ _ (ordered_sorted a hka) (ordered_sorted b hkb) (by
    intro z
    rw [mem_sorted, mem_sorted]
    exact ⟨hsub z, hback z⟩)
  unfold freeze
  rw [this]

/-- **C281, part.** Request infos whose header names are all in lower case: equal ones have equal
hashes, in whatever order their headers are. -/
theorem C281_lower_case_requests_partial (fold : Text → Text) (H : Hashes)
    (hf : List (Text × List Text) → Nat) (a b : RequestInfo)
    (hua : Unique fold a.headers) (hub : Unique fold b.headers)
    (hfa : ∀ x ∈ a.headers, fold x.1 = x.1) (hfb : ∀ x ∈ b.headers, fold x.1 = x.1)
    (h : a.eq fold b = true) : a.hash fold H hf = b.hash fold H hf := by
  unfold RequestInfo.eq at h
  split at h
  · cases h
  · rename_i hh
    have hh : headersEq fold a.headers b.headers = true := by
      cases hx : headersEq fold a.headers b.headers with
      | true => rfl
      | false => exact absurd hx hh
    split at h
    · cases h
    · split at h
      · cases h
      · split at h
        · cases h
        · rename_i h1 h2 h3
          have h1 := Classical.not_not.1 h1
          have h2 := Classical.not_not.1 h2
          have h3 := Classical.not_not.1 h3
          have hfr := freeze_eq fold _ _ hua hub hfa hfb hh
          have hnil : a.headers = [] ↔ b.headers = [] := by
            have : a.headers.length = b.headers.length := by
              unfold headersEq at hh
              rw [Bool.and_eq_true] at hh
              simpa using hh.1
            rw [← List.length_eq_zero_iff, ← List.length_eq_zero_iff, this]
          unfold RequestInfo.hash
          rw [hfr, h1, h2, h3]
          dsimp only
          by_cases hn : a.headers = []
          · have hb := hnil.1 hn
            simp only [hn, hb, ne_eq, not_true_eq_false, if_false]
          · have hb : b.headers ≠ [] := fun hx => hn (hnil.2 hx)
            simp only [hn, hb, ne_eq, not_false_eq_true, if_true]

example : freeze lower [([98], [[1]]), ([97], [[2], [3]])] = freeze lower [([97], [[2], [3]]), ([98], [[1]])] ∧
    headersEq lower [([98], [[1]]), ([97], [[2], [3]])] [([97], [[2], [3]]), ([98], [[1]])] = true := by
  decide

/-! ## C282 -/

/-- **C282, violated.** A proxy keeps the hash it had before a header was added: it is equal to one made
with that header, and their hashes differ unless by chance. -/
theorem C282_stale_hash_violated (fold : Text → Text) (H : Hashes) (hf : List (Text × List Text) → Nat)
    (rest : Nat) (name value : Text) (hne : hf (freeze fold [(name, [value])]) ≠ 0) :
    let p := ((Proxy.mk [] rest none).hash fold H hf).2.addHeader name value
    let q := Proxy.mk [(name, [value])] rest none
    p.eq fold q = true ∧ (p.hash fold H hf).1 ≠ (q.hash fold H hf).1 := by
  constructor
  · simp [Proxy.hash, Proxy.addHeader, Proxy.eq, headersEq]
  · simp only [Proxy.hash, Proxy.addHeader, Proxy.createHash]
    intro h
    apply hne
    have hx : ∀ p q r : Nat, p ^^^ r = q ^^^ r → p = q := by
      intro p q r hpq
      have := congrArg (· ^^^ r) hpq
      simpa [Nat.xor_assoc] using this
    have := hx _ _ _ h
    simpa using this.symm

/-- **C282, part.** The hash of a proxy whose headers are not changed stays, and is that of a new one
with the same parts. -/
theorem C282_hash_stays_partial (fold : Text → Text) (H : Hashes) (hf : List (Text × List Text) → Nat)
    (headers : Headers) (rest : Nat) :
    let p := Proxy.mk headers rest none
    ((p.hash fold H hf).2.hash fold H hf).1 = (p.hash fold H hf).1 ∧
      (p.hash fold H hf).2.eq fold p = headersEq fold headers headers := by
  simp [Proxy.hash, Proxy.eq]

/-- **C282, part.** Equal proxies whose header names are in lower case, and which were not changed, have
equal hashes. -/
theorem C282_lower_case_proxies_partial (fold : Text → Text) (H : Hashes)
    (hf : List (Text × List Text) → Nat) (a b : Proxy) (ha : a.cache = none) (hb : b.cache = none)
    (hua : Unique fold a.headers) (hub : Unique fold b.headers)
    (hfa : ∀ x ∈ a.headers, fold x.1 = x.1) (hfb : ∀ x ∈ b.headers, fold x.1 = x.1)
    (h : a.eq fold b = true) : (a.hash fold H hf).1 = (b.hash fold H hf).1 := by
  unfold Proxy.eq at h
  rw [Bool.and_eq_true] at h
  have hr : a.rest = b.rest := by simpa using h.2
  have hfr := freeze_eq fold _ _ hua hub hfa hfb h.1
  have hnil : a.headers = [] ↔ b.headers = [] := by
    have : a.headers.length = b.headers.length := by
      have hh := h.1
      unfold headersEq at hh
      rw [Bool.and_eq_true] at hh
      simpa using hh.1
    rw [← List.length_eq_zero_iff, ← List.length_eq_zero_iff, this]
  unfold Proxy.hash
  rw [ha, hb]
  dsimp only
  unfold Proxy.createHash
  rw [hfr, hr]
  by_cases hn : a.headers = []
  · rw [if_neg (by simpa using hn), if_neg (by simpa using hnil.1 hn)]
  · rw [if_pos hn, if_pos (fun hx => hn (hnil.2 hx))]

example :
    let H : Hashes := ⟨fun x => x, fun _ => 0⟩
    let p := ((Proxy.mk [([97], [[1]])] 5 none).hash lower H List.length).2
    p.cache = some 4 ∧ (p.hash lower H List.length).1 = 4 := by decide

/-! ## C283 -/

/-- **C283, violated.** A string that ignores case equals a plain text with another hash, so that it is
not found in a dictionary of plain texts. -/
theorem C283_equal_to_text_of_other_hash_violated (ho : Nat → Nat) (ht : Text → Nat)
    (hne : ht (lower [65]) ≠ ht [65]) :
    valueEq lower (.ignoreCase [65]) (.str [65]) = .yes ∧
      valueHash lower ht ho (.ignoreCase [65]) ≠ valueHash lower ht ho (.str [65]) :=
  ⟨by decide, hne⟩

/-- **C283, violated.** Equality with plain texts is not transitive. -/
theorem C283_not_transitive_violated :
    valueEq lower (.str [65]) (.ignoreCase [97]) = .yes ∧
      valueEq lower (.ignoreCase [97]) (.str [97]) = .yes ∧
      valueEq lower (.str [65]) (.str [97]) = .no := by decide

/-- **C283, violated.** Two such strings which differ in case are both equal and not equal. -/
theorem C283_equal_and_not_equal_violated (fold : Text → Text) (t u : Text) (hf : fold t = fold u)
    (hne : t ≠ u) :
    valueEq fold (.ignoreCase t) (.ignoreCase u) = .yes ∧ valueNe (.ignoreCase t) (.ignoreCase u) = .yes := by
  have e : (t != u) = true := by simpa using hne
  simp only [valueEq, icsEq, valueNe, hf, e, beq_self_eq_true]
  exact ⟨rfl, rfl⟩

/-- **C283, violated.** Comparing one with anything that is not a string raises, from either side. -/
theorem C283_comparison_raises_violated (fold : Text → Text) (t : Text) (n : Nat) :
    valueEq fold (.ignoreCase t) (.other n) = .typeError ∧
      valueEq fold (.other n) (.ignoreCase t) = .typeError := ⟨rfl, rfl⟩

/-- **C283, part.** Among themselves these strings are equal exactly if their folded texts are, which is
an equivalence, and equal ones have equal hashes. -/
theorem C283_among_themselves_partial (fold : Text → Text) (ht : Text → Nat) (ho : Nat → Nat)
    (t u : Text) :
    (valueEq fold (.ignoreCase t) (.ignoreCase u) = .yes ↔ fold t = fold u) ∧
      (valueEq fold (.ignoreCase t) (.ignoreCase u) = .yes →
        valueHash fold ht ho (.ignoreCase t) = valueHash fold ht ho (.ignoreCase u)) := by
  have h : valueEq fold (.ignoreCase t) (.ignoreCase u) = .yes ↔ fold t = fold u := by
    simp only [valueEq, icsEq]
    cases e : (fold t == fold u) with
    | true => simpa [Cmp.ofBool] using e
    | false => simpa [Cmp.ofBool] using e
  exact ⟨h, fun hx => congrArg ht (h.1 hx)⟩

/-- **C283, part.** Comparing is symmetric. -/
theorem C283_symmetric_partial (fold : Text → Text) (a b : Value) : valueEq fold a b = valueEq fold b a := by
  have hb : ∀ x y : Text, (x == y) = (y == x) := by
    intro x y; exact Bool.beq_comm
  have hn : ∀ x y : Nat, (x == y) = (y == x) := by intro x y; exact Bool.beq_comm
  cases a <;> cases b <;> simp [valueEq, icsEq, hb, hn]
  all_goals first | rw [hb] | rw [hn]

/-- **C283, part.** A plain text which is folded already has the same hash as what it equals. -/
theorem C283_folded_text_partial (fold : Text → Text) (ht : Text → Nat) (ho : Nat → Nat) (t u : Text)
    (hu : fold u = u) (h : valueEq fold (.ignoreCase t) (.str u) = .yes) :
    valueHash fold ht ho (.ignoreCase t) = valueHash fold ht ho (.str u) := by
  have : fold t = fold u := by
    simp only [valueEq, icsEq] at h
    cases e : (fold t == fold u) with
    | true => simpa using e
    | false => rw [e] at h; cases h
  show ht (fold t) = ht u
  rw [this, hu]

example : valueEq lower (.ignoreCase [65, 66]) (.str [97, 66]) = .yes ∧
    valueEq lower (.ignoreCase [65, 66]) (.ignoreCase [97, 67]) = .no := by decide

/-! ## C284 -/

/-- **C284, violated.** Two handles due at the same time which call something else are comparable by
neither `<=` nor `>=`. -/
theorem C284_not_comparable_violated (a b : TimerHandle) (hw : a.when = b.when) (hf : a.func ≠ b.func) :
    a.le b = false ∧ b.le a = false ∧ a.ge b = false ∧ b.ge a = false := by
  simp [TimerHandle.le, TimerHandle.ge, TimerHandle.eq, hw, hf, Ne.symm hf]

/-- **C284, part.** `<` orders handles by their time, as the heap of the loop needs it: it is
irreflexive, transitive, and of two handles one is earlier or both are due at the same time. -/
theorem C284_strict_order_partial (a b c : TimerHandle) :
    a.lt a = false ∧ (a.lt b = true → b.lt c = true → a.lt c = true) ∧
      (a.lt b = true ∨ b.lt a = true ∨ a.when = b.when) ∧ a.gt b = b.lt a := by
  simp only [TimerHandle.lt, TimerHandle.gt, decide_eq_true_eq, decide_eq_false_iff_not]
  exact ⟨by omega, by omega, by omega, trivial⟩

/-- **C284, part.** `!=` is the opposite of `==`, which compares all parts; equal handles have equal
hashes, and are at most and at least each other. -/
theorem C284_equality_partial (H : Hashes) (a b : TimerHandle) :
    (a.ne b = !a.eq b) ∧
      (a.eq b = true ↔ a.when = b.when ∧ a.func = b.func ∧ a.args = b.args ∧ a.cancelled = b.cancelled) ∧
      (a.eq b = true → a.hash H = b.hash H ∧ a.le b = true ∧ a.ge b = true) := by
  refine ⟨?_, ?_, ?_⟩
  · simp [TimerHandle.ne, TimerHandle.eq, Bool.not_and, bne]
  · simp [TimerHandle.eq, and_assoc]
  · intro h
    refine ⟨?_, ?_, ?_⟩
    · simp [TimerHandle.eq, and_assoc] at h
      exact congrArg H.h h.1
    · unfold TimerHandle.le; split
      · rfl
      · exact h
    · unfold TimerHandle.ge; split
      · rfl
      · exact h

example : TimerHandle.le ⟨1, 2, 3, false⟩ ⟨1, 2, 3, false⟩ = true ∧
    TimerHandle.le ⟨1, 2, 3, false⟩ ⟨2, 0, 0, true⟩ = true ∧
    TimerHandle.lt ⟨1, 2, 3, false⟩ ⟨1, 3, 3, false⟩ = false := by decide

end Verif.Equality
