import Verif.Multipart.Props
import Verif.Multipart.PropsBase64
import Verif.Http.PropsLines

/-!
# C101: a multipart body is read back

C101 says that of the body a `MultipartWriter` writes the parts are read, with their headers and their data.
-/

namespace Verif.Multipart

open Http (Bytes Headers crlf cutAt headEnd decimal number digit parseHeaders Writable broken headerLine)
open MultiDict (Good)

/-! ### Specification -/

/-- A line break and the boundary. -/
def delimiter (boundary : Bytes) : Bytes := crlf ++ dashes ++ boundary

/-- The delimiter is behind the data, and nowhere before. -/
def Free (boundary data : Bytes) : Prop := ∀ x y, data ++ delimiter boundary = x ++ delimiter boundary ++ y → y = []

/-- A payload which can be sent: its headers can be written, and do not have a content length of their own, its size is right, and if
the data goes without its length, the boundary is not in it. -/
structure Sendable (codec : Codec) (fold : Bytes → Bytes) (boundary : Bytes) (p : Payload) : Prop where
  good : Good fold p.headers
  writable : ∀ h ∈ p.headers.items, Writable h
  type : Http.Part p.contentType
  length : p.headers.get fold contentLength = none
  truthful : p.Truthful
  free : ∀ content transfer, contentOf fold (typed fold p) = some content → transferOf fold (typed fold p) = some transfer →
    p.size = none ∨ content ≠ none ∨ transfer ≠ none → Free boundary (Entry.body codec ⟨p, [], content, transfer⟩)

/-! ### Searching -/

theorem cutAt_free {pat : Bytes} (hp : pat ≠ []) (l rest : Bytes) (h : ∀ x y, l ++ pat = x ++ pat ++ y → y = []) :
    cutAt pat (l ++ pat ++ rest) = some (l, rest) := by
  induction l with
  | nil =>
    cases hpat : pat with
    | nil => exact absurd hpat hp
    | cons a as =>
      have : (a :: as).isPrefixOf (a :: (as ++ rest)) = true := by
        rw [List.isPrefixOf_iff_prefix]; exact ⟨rest, by simp⟩
      rw [List.nil_append, List.cons_append, cutAt, if_pos this]
      simp
  | cons c l ih =>
    have hn : pat.isPrefixOf (c :: (l ++ pat ++ rest)) = false := by
      cases hx : pat.isPrefixOf (c :: (l ++ pat ++ rest)) with
      | false => rfl
      | true =>
        exfalso
        rw [List.isPrefixOf_iff_prefix] at hx
        have h2 : pat <+: c :: (l ++ pat) := by
          refine List.prefix_of_prefix_length_le hx ⟨rest, by simp⟩ ?_
          simp only [List.length_cons, List.length_append]; omega
        obtain ⟨y, hy⟩ := h2
        have := h [] y (by simpa using hy.symm)
        rw [this] at hy
        have := congrArg List.length hy
        simp only [List.length_cons, List.length_append, List.append_nil] at this
        omega
    rw [List.cons_append, List.cons_append, cutAt, hn]
    rw [ih fun x y hxy => h (c :: x) y (by simp [hxy])]
    rfl

theorem free_of_not_cr {boundary data : Bytes} (h : Http.cr ∉ data) : Free boundary data := by
  intro x y hxy
  have hlen := congrArg List.length hxy
  simp only [List.length_append] at hlen
  have hx : data.length ≤ x.length := by
    cases Nat.lt_or_ge x.length data.length with
    | inr h => exact h
    | inl hlt =>
      exfalso
      have h1 : (data ++ delimiter boundary)[x.length]? = some Http.cr := by
        rw [hxy, List.append_assoc, List.getElem?_append_right (Nat.le_refl _)]
        simp [delimiter, crlf]
      rw [List.getElem?_append_left hlt] at h1
      exact h (List.mem_of_getElem? h1)
  exact List.eq_nil_of_length_eq_zero (by omega)

/-! ### A part -/

structure Ok (codec : Codec) (fold : Bytes → Bytes) (boundary : Bytes) (e : Entry) : Prop where
  good : Good fold e.payload.headers
  writable : ∀ h ∈ e.payload.headers.items, Writable h
  any : e.payload.headers.items ≠ []
  rendered : e.headers = Http.writeHeaders e.payload.headers ++ crlf
  length : first fold e.payload.headers contentLength = some (decimal (e.body codec).length) ∨
    (first fold e.payload.headers contentLength = none ∧ Free boundary (e.body codec))

theorem cutAt_headers {d : Headers} (hw : ∀ h ∈ d.items, Writable h) (hn : d.items ≠ []) (stream : Bytes) :
    ∃ head, cutAt headEnd (Http.writeHeaders d ++ crlf ++ stream) = some (head, stream) ∧ Http.Behind (broken d.items) head := by
  cases hi : d.items with
  | nil => exact absurd hi hn
  | cons h items =>
    rw [hi] at hw
    have hh := hw h (by simp)
    have := Http.cutAt_written items (fun x hx => hw x (by simp [hx])) stream (headerLine h) (Http.oneLine_headerLine hh)
    refine ⟨headerLine h ++ broken items, ?_, .inr (by simp [broken])⟩
    have e : Http.writeHeaders d ++ crlf ++ stream =
        headerLine h ++ crlf ++ (items.flatMap fun h => h.1 ++ [Http.colon, Http.sp] ++ h.2 ++ crlf) ++ crlf ++ stream := by
      simp [Http.writeHeaders, hi, headerLine]
    rw [e, this]

theorem readPart_ok {codec : Codec} {fold : Bytes → Bytes} {boundary : Bytes} {e : Entry} (h : Ok codec fold boundary e) (rest : Bytes) :
    readPart fold boundary (e.headers ++ (e.body codec ++ delimiter boundary ++ rest)) = afterBoundary (e.payload.headers, e.body codec) rest := by
  obtain ⟨hg, hw, hn, hr, hl⟩ := h
  obtain ⟨head, h1, h2⟩ := cutAt_headers hw hn (e.body codec ++ delimiter boundary ++ rest)
  rw [hr, readPart, h1]
  simp only [Http.parse_broken hg hw h2]
  generalize e.body codec = body at hl ⊢
  rcases hl with hl | ⟨hl, hf⟩
  · simp only [hl]
    have hlen : (delimiter boundary).length = boundary.length + 4 := by
      simp [delimiter, crlf, dashes]
    have hd : (decimal body.length).all digit = true := by
      rw [List.all_eq_true]; exact Http.digit_decimal _
    rw [if_neg (by simp [Http.decimal_ne, hd]), Http.number_decimal, if_neg (by simp only [List.length_append, hlen]; omega)]
    have e1 : List.drop body.length (body ++ delimiter boundary ++ rest) = delimiter boundary ++ rest := by simp
    have e2 : List.take body.length (body ++ delimiter boundary ++ rest) = body := by simp
    have e3 : List.drop (body.length + (boundary.length + 4)) (body ++ delimiter boundary ++ rest) = rest := by
      rw [← hlen, ← List.length_append, List.drop_left]
    rw [e1, e2, e3, ← hlen, List.take_left, if_neg (by simp [delimiter])]
  · simp only [hl]
    rw [show crlf ++ dashes ++ boundary = delimiter boundary from rfl, cutAt_free (by simp [delimiter, crlf]) body rest hf]

/-! ### All parts -/

/-- What follows a boundary. -/
def following (codec : Codec) (boundary : Bytes) (tail : Bytes) : List Entry → Bytes
  | [] => dashes ++ crlf ++ tail
  | e :: es => crlf ++ (e.headers ++ (e.body codec ++ delimiter boundary ++ following codec boundary tail es))

theorem written_following (codec : Codec) (w : Writer) (tail : Bytes) :
    w.written codec ++ tail = dashes ++ w.boundary ++ following codec w.boundary tail w.data := by
  simp only [Writer.written]
  generalize w.data = es
  induction es with
  | nil => simp [following]
  | cons e es ih =>
    have e1 : List.flatMap (Entry.written codec w.boundary) (e :: es) ++ (dashes ++ w.boundary ++ dashes ++ crlf) ++ tail =
        Entry.written codec w.boundary e ++ (List.flatMap (Entry.written codec w.boundary) es ++ (dashes ++ w.boundary ++ dashes ++ crlf) ++ tail) := by
      simp
    rw [e1, ih]
    simp [Entry.written, following, delimiter]

theorem afterBoundary_last {codec : Codec} {boundary tail : Bytes} (part : Headers × Bytes) :
    afterBoundary part (following codec boundary tail []) = .done false (some part) tail := by
  have h1 : ¬ tail.length + 1 + 1 + 1 + 1 < 2 := by omega
  have h2 : ¬ tail.length + 1 + 1 < 2 := by omega
  simp [afterBoundary, following, dashes, crlf, Http.cr, Http.lf, h1, h2]

theorem afterBoundary_more {codec : Codec} {boundary tail : Bytes} {e : Entry} {es : List Entry} (part : Headers × Bytes) :
    afterBoundary part (following codec boundary tail (e :: es)) =
      .done true (some part) (e.headers ++ (e.body codec ++ delimiter boundary ++ following codec boundary tail es)) := by
  simp [afterBoundary, following, crlf]

theorem readLoop_ok {codec : Codec} {fold : Bytes → Bytes} {boundary tail : Bytes} (es : List Entry) : ∀ (e : Entry) (fuel : Nat),
    es.length + 1 ≤ fuel → (∀ x ∈ e :: es, Ok codec fold boundary x) →
    readLoop fold (.bytes boundary) fuel false (e.headers ++ (e.body codec ++ delimiter boundary ++ following codec boundary tail es)) =
      ((e :: es).map fun e => (e.payload.headers, e.body codec), none) := by
  induction es with
  | nil =>
    intro e fuel hf h
    obtain ⟨fuel, rfl⟩ : ∃ k, fuel = k + 1 := ⟨fuel - 1, by omega⟩
    rw [readLoop]
    simp only [readSingle, Bool.false_eq_true, if_false]
    rw [readPart_ok (h e (by simp)), afterBoundary_last]
    rfl
  | cons e' es ih =>
    intro e fuel hf h
    simp only [List.length_cons] at hf
    obtain ⟨fuel, rfl⟩ : ∃ k, fuel = k + 1 := ⟨fuel - 1, by omega⟩
    rw [readLoop]
    simp only [readSingle, Bool.false_eq_true, if_false]
    rw [readPart_ok (h e (by simp)), afterBoundary_more]
    simp only [if_true]
    rw [ih e' fuel (by omega) fun x hx => h x (by simp only [List.mem_cons] at hx ⊢; exact .inr hx)]
    rfl

theorem following_length (codec : Codec) (boundary tail : Bytes) (es : List Entry) : es.length ≤ (following codec boundary tail es).length := by
  induction es with
  | nil => simp
  | cons e es ih =>
    simp only [following, List.length_cons, List.length_append, crlf, List.length_nil]
    omega

theorem readParts_ok {codec : Codec} {fold : Bytes → Bytes} (w : Writer) (tail : Bytes) (h : ∀ e ∈ w.data, Ok codec fold w.boundary e) :
    readParts fold (.bytes w.boundary) (w.written codec ++ tail) = (w.data.map fun e => (e.payload.headers, e.body codec), none) := by
  have hlen : w.data.length + 2 ≤ (w.written codec ++ tail).length := by
    rw [written_following]
    have := following_length codec w.boundary tail w.data
    simp only [List.length_append, dashes, List.length_cons, List.length_nil]
    omega
  rw [readParts]
  generalize (w.written codec ++ tail).length = n at hlen
  rw [written_following]
  have hcut : cutAt (dashes ++ w.boundary) (dashes ++ w.boundary ++ following codec w.boundary tail w.data) =
      some ([], following codec w.boundary tail w.data) := by
    have := cutAt_free (pat := dashes ++ w.boundary) (by simp [dashes]) [] (following codec w.boundary tail w.data) (by
      intro x y hxy
      have := congrArg List.length hxy
      simp only [List.length_append, List.length_nil] at this
      exact List.eq_nil_of_length_eq_zero (by omega))
    simpa using this
  generalize hb : w.boundary = boundary at *
  generalize w.data = es at *
  rw [readLoop]
  simp only [readSingle, if_true, hcut]
  cases es with
  | nil =>
    have h1 : ¬ tail.length + 1 + 1 + 1 + 1 < 2 := by omega
    have h2 : ¬ tail.length + 1 + 1 < 2 := by omega
    simp [following, dashes, crlf, Http.cr, Http.lf, h1, h2]
  | cons e es =>
    have e1 : (following codec boundary tail (e :: es)).take 2 = crlf := by simp [following, crlf]
    have e2 : (following codec boundary tail (e :: es)).drop 2 =
        e.headers ++ (e.body codec ++ delimiter boundary ++ following codec boundary tail es) := by simp [following, crlf]
    have e3 : ¬ (following codec boundary tail (e :: es)).length < 2 := by
      simp only [following, List.length_append, crlf, List.length_cons, List.length_nil]; omega
    rw [if_neg e3, if_pos e1, e2, readPart_ok (h e (by simp))]
    cases es with
    | nil => rw [afterBoundary_last]; rfl
    | cons e' es =>
      rw [afterBoundary_more]
      simp only [if_true]
      simp only [List.length_cons] at hlen
      rw [readLoop_ok es e' n (by omega) fun x hx => h x (by simp only [List.mem_cons] at hx ⊢; exact .inr hx)]
      rfl

/-! ### The headers of a part -/

theorem mem_items {d : Headers} {h : Bytes × Bytes} : h ∈ d.items ↔ ∃ e ∈ d, h.1 = e.1 ∧ h.2 ∈ e.2 := by
  obtain ⟨a, b⟩ := h
  simp only [MultiDict.Dict.items, List.mem_flatMap, List.mem_map, Prod.mk.injEq]
  constructor
  · rintro ⟨e, he, v, hv, rfl, rfl⟩; exact ⟨e, he, rfl, hv⟩
  · rintro ⟨e, he, rfl, hv⟩; exact ⟨e, he, b, hv, rfl, rfl⟩

theorem put_items {fold : Bytes → Bytes} {d : Headers} {k v : Bytes} (hn : d.get fold k = none) :
    d.put fold k [v] = d ++ [(k, [v])] := by
  induction d with
  | nil => rfl
  | cons e d ih =>
    simp only [MultiDict.Dict.get, List.find?_cons] at hn
    by_cases h : fold e.1 = fold k
    · simp [h] at hn
    · simp only [h, decide_false] at hn
      obtain ⟨a, b⟩ := e
      rw [MultiDict.Dict.put, if_neg h, ih hn, List.cons_append]

theorem set_new {fold : Bytes → Bytes} {d : Headers} {k v : Bytes} (hn : d.get fold k = none) :
    d.set fold k v = d ++ [(k, [v])] := by
  rw [MultiDict.Dict.set, hn]
  exact put_items hn

theorem get_new {fold : Bytes → Bytes} {d : Headers} {k k' v : Bytes} :
    MultiDict.Dict.get fold (d ++ [(k, [v])]) k' = (d.get fold k').or (if fold k = fold k' then some [v] else none) := by
  simp only [MultiDict.Dict.get, List.find?_append]
  cases hd : d.find? (fun e => decide (fold e.1 = fold k')) with
  | none =>
    by_cases h : fold k = fold k' <;> simp [h]
  | some x => simp

theorem items_new {d : Headers} {k v : Bytes} : MultiDict.Dict.items (d ++ [(k, [v])]) = d.items ++ [(k, v)] := by
  simp [MultiDict.Dict.items]

theorem name_constant {name : Bytes} (h : name ∈ [contentType, contentLength]) : Http.Name name := by
  simp only [List.mem_cons, List.not_mem_nil, or_false] at h
  rcases h with rfl | rfl
  · exact Http.Name.of_token ⟨by decide, by decide +kernel⟩
  · exact Http.Name.of_token ⟨by decide, by decide +kernel⟩

theorem part_decimal (n : Nat) : Http.Part (decimal n) := by
  have hw : ∀ b ∈ decimal n, Http.white b = false ∧ b ≠ Http.cr := by
    intro b hb
    have hd := Http.digit_decimal n b hb
    constructor
    · cases hx : Http.white b with
      | false => rfl
      | true =>
        simp only [Http.digit, Http.white, Bool.and_eq_true, Bool.or_eq_true, decide_eq_true_eq] at hd hx
        rcases hx with hx | hx
        · subst hx; exact absurd hd.1 (by decide)
        · have h1 : b.toNat ≤ 13 := hx.2
          have h2 : 48 ≤ b.toNat := hd.1
          omega
    · exact Http.digit_ne_cr hd
  refine ⟨Http.oneLine_of_not_cr fun h => (hw _ h).2 rfl, fun b hb => (hw b (List.mem_of_mem_head? hb)).1, fun b hb => (hw b (List.mem_of_getLast? hb)).1⟩

/-- The headers of a part: those of the payload, with a content type and a content length if there is none. -/
structure Headed (fold : Bytes → Bytes) (p : Payload) (known : Bool) (d : Headers) : Prop where
  type : first fold d contentType = some ((first fold p.headers contentType).getD p.contentType)
  length : first fold d contentLength = if known then some (decimal (p.size.getD 0)) else none
  others : ∀ k, fold k ≠ fold contentType → fold k ≠ fold contentLength → d.get fold k = p.headers.get fold k

theorem typed_facts {codec : Codec} {fold : Bytes → Bytes} {boundary : Bytes} {p : Payload} (h : Sendable codec fold boundary p)
    (hf : fold contentType ≠ fold contentLength) :
    Good fold (typed fold p) ∧ (∀ x ∈ (typed fold p).items, Writable x) ∧ (typed fold p).get fold contentLength = none ∧
      (typed fold p).items ≠ [] ∧ first fold (typed fold p) contentType = some ((first fold p.headers contentType).getD p.contentType) ∧
      ∀ k, fold k ≠ fold contentType → (typed fold p).get fold k = p.headers.get fold k := by
  simp only [typed]
  split
  · rename_i hs
    obtain ⟨vs, hvs⟩ := Option.isSome_iff_exists.mp hs
    have hne := (h.good.get_ne hvs).1
    obtain ⟨v, vs', rfl⟩ : ∃ v vs', vs = v :: vs' := by
      cases vs with
      | nil => exact absurd rfl hne
      | cons v vs' => exact ⟨v, vs', rfl⟩
    refine ⟨h.good, h.writable, h.length, ?_, by simp [first, hvs], fun k _ => rfl⟩
    simp only [MultiDict.Dict.get, Option.map_eq_some_iff] at hvs
    obtain ⟨e, he, hev⟩ := hvs
    have hm := List.mem_of_find?_eq_some he
    intro h0
    have : (e.1, v) ∈ p.headers.items := mem_items.mpr ⟨e, hm, rfl, by rw [hev]; simp⟩
    rw [h0] at this
    cases this
  · rename_i hs
    have hn : p.headers.get fold contentType = none := by
      cases hx : p.headers.get fold contentType with
      | none => rfl
      | some => simp [hx] at hs
    refine ⟨h.good.set _ _, ?_, ?_, ?_, ?_, ?_⟩
    · rw [set_new hn, items_new]
      intro x hx
      rcases List.mem_append.mp hx with hx | hx
      · exact h.writable x hx
      · simp only [List.mem_cons, List.not_mem_nil, or_false] at hx
        subst hx
        exact ⟨name_constant (by simp), h.type⟩
    · rw [set_new hn, get_new, h.length, if_neg hf]; rfl
    · rw [set_new hn, items_new]; simp
    · simp only [first]
      rw [set_new hn, get_new, hn]; simp
    · intro k hk
      rw [set_new hn, get_new, if_neg (fun hx => hk hx.symm)]; simp

theorem ok_of_sendable {codec : Codec} {fold : Bytes → Bytes} {boundary : Bytes} {p : Payload} (h : Sendable codec fold boundary p)
    (hf : fold contentType ≠ fold contentLength) {content : Option Content} {transfer : Option Transfer}
    (hc : contentOf fold (typed fold p) = some content) (ht : transferOf fold (typed fold p) = some transfer) :
    Ok codec fold boundary ⟨{ p with headers := measured fold (typed fold p) p.size content transfer },
      Http.writeHeaders (measured fold (typed fold p) p.size content transfer) ++ crlf, content, transfer⟩ ∧
    Headed fold p (p.size.isSome && content.isNone && transfer.isNone) (measured fold (typed fold p) p.size content transfer) := by
  obtain ⟨g1, g2, g3, g4, g5, g6⟩ := typed_facts h hf
  have hbody : ∀ d r, Entry.body codec ⟨{ p with headers := d }, r, content, transfer⟩ = Entry.body codec ⟨p, [], content, transfer⟩ :=
    fun d r => rfl
  by_cases hk : p.size ≠ none ∧ content = none ∧ transfer = none
  · obtain ⟨hs, rfl, rfl⟩ := hk
    obtain ⟨n, hn⟩ := Option.ne_none_iff_exists'.mp hs
    have hm : measured fold (typed fold p) p.size none none = typed fold p ++ [(contentLength, [decimal n])] := by
      simp only [measured, hn, and_self, if_true]
      exact set_new g3
    have hm' : measured fold (typed fold p) p.size none none = (typed fold p).set fold contentLength (decimal n) := by
      simp only [measured, hn, and_self, if_true]
    have hlen : (Entry.body codec ⟨p, [], none, none⟩).length = n := by
      have : Entry.body codec ⟨p, [], none, none⟩ = p.chunks.flatten := by simp [Entry.body]
      rw [this]
      exact h.truthful n hn
    refine ⟨⟨?_, ?_, ?_, rfl, .inl ?_⟩, ⟨?_, ?_, ?_⟩⟩
    · dsimp only; rw [hm']; exact g1.set _ _
    · dsimp only
      rw [hm, items_new]
      intro x hx
      rcases List.mem_append.mp hx with hx | hx
      · exact g2 x hx
      · simp only [List.mem_cons, List.not_mem_nil, or_false] at hx
        subst hx
        exact ⟨name_constant (by simp), part_decimal n⟩
    · dsimp only; rw [hm, items_new]; simp
    · rw [hbody, hlen]
      simp only [first]
      rw [hm, get_new, g3]; simp
    · simp only [first] at g5 ⊢
      rw [hm, get_new, if_neg (fun hx => hf hx.symm), Option.or_none, g5]
    · simp only [first]
      rw [hm, get_new, g3]; simp [hn]
    · intro k h1 h2
      rw [hm, get_new, if_neg (fun hx => h2 hx.symm), Option.or_none]
      exact g6 k h1
  · have hm : measured fold (typed fold p) p.size content transfer = typed fold p := by
      simp only [measured]
      cases hs : p.size with
      | none => rfl
      | some n =>
        dsimp only
        rw [if_neg]
        rintro ⟨rfl, rfl⟩
        exact hk ⟨by simp [hs], rfl, rfl⟩
    have hk' : p.size = none ∨ content ≠ none ∨ transfer ≠ none := by
      by_cases h1 : p.size = none
      · exact .inl h1
      · by_cases h2 : content = none
        · exact .inr (.inr fun h3 => hk ⟨h1, h2, h3⟩)
        · exact .inr (.inl h2)
    have hkn : (p.size.isSome && content.isNone && transfer.isNone) = false := by
      rcases hk' with h1 | h1 | h1
      · simp [h1]
      · cases content with
        | none => exact absurd rfl h1
        | some => simp
      · cases transfer with
        | none => exact absurd rfl h1
        | some => simp
    rw [hm, hkn]
    refine ⟨⟨g1, g2, g4, rfl, .inr ⟨by simp [first, g3], ?_⟩⟩, ⟨g5, by simp [first, g3], fun k h1 _ => g6 k h1⟩⟩
    rw [hbody]
    exact h.free content transfer hc ht hk'

theorem appendAll_ok {codec : Codec} {fold : Bytes → Bytes} {boundary : Bytes} (hf : fold contentType ≠ fold contentLength) (ps : List Payload) :
    ∀ (w : Writer), w.boundary = boundary → (∀ e ∈ w.data, Ok codec fold boundary e) → (∀ p ∈ ps, Sendable codec fold boundary p) →
      (w.appendAll fold ps).boundary = boundary ∧ ∀ e ∈ (w.appendAll fold ps).data, Ok codec fold boundary e := by
  induction ps with
  | nil => intro w hb h _; exact ⟨hb, h⟩
  | cons p ps ih =>
    intro w hb h hp
    simp only [Writer.appendAll, List.foldl_cons]
    cases ha : w.append fold p with
    | none => exact ih w hb h fun q hq => hp q (by simp [hq])
    | some w' =>
      refine ih w' ?_ ?_ fun q hq => hp q (by simp [hq])
      · obtain ⟨_, _, _, _, rfl⟩ := append_cases ha; exact hb
      · obtain ⟨content, transfer, hc, ht, rfl⟩ := append_cases ha
        intro e he
        simp only [List.mem_append, List.mem_cons, List.not_mem_nil, or_false] at he
        rcases he with he | rfl
        · exact h e he
        · exact (ok_of_sendable (hp p (by simp)) hf hc ht).1

/-- **C101**, part: of what a writer writes, whatever was appended to it and whatever follows it, the parts are read in order, each with
its headers and with what was written for its data, if the boundary is given as bytes. -/
theorem C101_read_partial (codec : Codec) (fold : Bytes → Bytes) (boundary : Bytes) (hf : fold contentType ≠ fold contentLength)
    (ps : List Payload) (hp : ∀ p ∈ ps, Sendable codec fold boundary p) (tail : Bytes) :
    readParts fold (.bytes boundary) ((Writer.appendAll fold { boundary } ps).written codec ++ tail) =
      ((Writer.appendAll fold { boundary } ps).data.map fun e => (e.payload.headers, e.body codec), none) := by
  obtain ⟨hb, h⟩ := appendAll_ok (codec := codec) hf ps { boundary } rfl (by simp) hp
  have := readParts_ok (codec := codec) (fold := fold) (Writer.appendAll fold { boundary } ps) tail (by rw [hb]; exact h)
  rw [hb] at this
  exact this

/-- **C101**: the headers of a part are the headers of its payload, with a content type, and with the content length if the size is known and
nothing is encoded. -/
theorem C101_headers (codec : Codec) (fold : Bytes → Bytes) (boundary : Bytes) (hf : fold contentType ≠ fold contentLength) (w w' : Writer)
    (p : Payload) (hp : Sendable codec fold boundary p) (h : w.append fold p = some w') :
    ∃ e, w'.data = w.data ++ [e] ∧ e.payload.chunks = p.chunks ∧
      Headed fold p (p.size.isSome && e.content.isNone && e.transfer.isNone) e.payload.headers := by
  obtain ⟨content, transfer, hc, ht, rfl⟩ := append_cases h
  exact ⟨_, rfl, rfl, (ok_of_sendable hp hf hc ht).2⟩

theorem digit_not_cr : ∀ n : Fin 64, b64Digit n.val ≠ Http.cr := by decide

theorem digit_not_cr' {n : Nat} (h : n < 64) : Http.cr ≠ b64Digit n := fun hx => digit_not_cr ⟨n, h⟩ hx.symm

/-- **C101**: the boundary is never in the data of a part with base 64. -/
theorem C101_base64 (codec : Codec) (boundary : Bytes) (e : Entry) (h : e.transfer = some .base64) : Free boundary (e.body codec) := by
  refine free_of_not_cr ?_
  have hb : e.body codec = b64 (plain codec e.content e.payload.chunks) := by
    simp only [Entry.body, h]
    rw [if_pos (by simp)]
    have := ((Follows.new codec e.content).writeAll e.payload.chunks).eof
    simpa using this
  rw [hb]
  generalize plain codec e.content e.payload.chunks = data
  have hpad : Http.cr ≠ 61 := by decide
  fun_induction b64 data with
  | case1 a b c rest ih =>
    have ha := a.toNat_lt
    have hb := b.toNat_lt
    have hc := c.toNat_lt
    simp only [List.mem_append, List.mem_cons, List.not_mem_nil, or_false, not_or]
    exact ⟨⟨digit_not_cr' (by omega), digit_not_cr' (by omega), digit_not_cr' (by omega), digit_not_cr' (by omega)⟩, ih⟩
  | case2 a b =>
    have ha := a.toNat_lt
    have hb := b.toNat_lt
    simp only [List.mem_cons, List.not_mem_nil, or_false, not_or]
    exact ⟨digit_not_cr' (by omega), digit_not_cr' (by omega), digit_not_cr' (by omega), hpad⟩
  | case3 a =>
    have ha := a.toNat_lt
    simp only [List.mem_cons, List.not_mem_nil, or_false, not_or]
    exact ⟨digit_not_cr' (by omega), digit_not_cr' (by omega), hpad, hpad⟩
  | case4 => simp

/-- **C101 is violated**: `read_multipart` gives the boundary as a string, and never reads anything. -/
theorem C101_read_multipart_violated (fold : Bytes → Bytes) (foldText : ContentType.Text → ContentType.Text) (headers : Headers) (stream : Bytes) :
    (readMultipart fold foldText headers stream).1 = [] ∧
      ((readMultipart fold foldText headers stream).2 = some .payload ∨ (readMultipart fold foldText headers stream).2 = some .type) := by
  simp only [readMultipart]
  split
  · exact ⟨rfl, .inl rfl⟩
  · split
    · exact ⟨rfl, .inl rfl⟩
    · split
      · exact ⟨rfl, .inl rfl⟩
      · exact ⟨rfl, .inr rfl⟩

/-- An instance: a payload with the delimiter in its data, and one without a size. -/
def delimited : Payload := Payload.bytes [] [97] [13, 10, 45, 45, 98]
def unsized : Payload := ⟨[], [97], none, [[1], [13, 10, 45], []]⟩

example : readParts id (.bytes [98]) ((Writer.appendAll id { boundary := [98] } [delimited, unsized]).written
      ⟨Unit, fun _ => (), fun _ _ => ((), []), fun _ => [], id⟩ ++ [7]) =
    ([([(contentType, [[97]]), (contentLength, [[53]])], [13, 10, 45, 45, 98]), ([(contentType, [[97]])], [1, 13, 10, 45])], none) := by
  have hpart : Http.Part [97] := ⟨Http.oneLine_of_not_cr (by decide), by decide, by decide⟩
  rw [C101_read_partial _ id [98] (by decide) [delimited, unsized]]
  · with_unfolding_all rfl
  · intro p hp
    simp only [List.mem_cons, List.not_mem_nil, or_false] at hp
    rcases hp with rfl | rfl
    · refine ⟨MultiDict.Good.nil, by simp [delimited, Payload.bytes, MultiDict.Dict.items], hpart, rfl, bytes_truthful _ _ _, ?_⟩
      intro content transfer hc ht h
      cases hc
      cases ht
      simp [delimited, Payload.bytes] at h
    · refine ⟨MultiDict.Good.nil, by simp [unsized, MultiDict.Dict.items], hpart, rfl, (by intro n h; cases h), ?_⟩
      intro content transfer hc ht h
      cases hc
      cases ht
      intro x y hxy
      have : [1, 13, 10, 45] ++ delimiter [98] = x ++ delimiter [98] ++ y := hxy
      rcases x with _ | ⟨a, _ | ⟨b, _ | ⟨c, _ | ⟨d, x⟩⟩⟩⟩
      · simp [delimiter, crlf, dashes, Http.cr, Http.lf] at this
      · simp [delimiter, crlf, dashes, Http.cr, Http.lf] at this
      · simp [delimiter, crlf, dashes, Http.cr, Http.lf] at this
      · simp [delimiter, crlf, dashes, Http.cr, Http.lf] at this
      · have hl := congrArg List.length this
        simp only [List.length_append, List.length_cons, List.length_nil, delimiter, crlf, dashes] at hl
        exact List.eq_nil_of_length_eq_zero (by omega)

end Verif.Multipart
