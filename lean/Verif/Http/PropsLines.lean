import Verif.Http.Props
import Verif.Header.Model
import Verif.Http.Framing

/-!
# Properties of heads of HTTP messages: request and status lines

C50, C85, C86, C87, C88, C89.
-/

namespace Verif.Http

open MultiDict (Good)

/-! ### Numbers -/

theorem digit_decimal (n : Nat) : ∀ b ∈ decimal n, digit b = true := by
  intro b hb
  obtain ⟨c, hc, rfl⟩ := List.mem_map.mp hb
  have := Nat.isDigit_of_mem_toDigits (by decide) (by decide) hc
  simp only [Char.isDigit, Bool.and_eq_true, decide_eq_true_eq] at this
  have h1 : 48 ≤ c.toNat := this.1
  have h2 : c.toNat ≤ 57 := this.2
  have : ∀ i : Fin 58, 48 ≤ i.val → digit (UInt8.ofNat i.val) = true := by decide
  exact this ⟨c.toNat, by omega⟩ h1

theorem decimal_ne (n : Nat) : decimal n ≠ [] := by
  intro h
  exact Nat.toDigits_ne_nil (List.map_eq_nil_iff.mp h)

theorem number_decimal (n : Nat) : number (decimal n) = n := by
  have key : ∀ (l : List Char) (init : Nat), (∀ c ∈ l, c.toNat < 256) →
      (l.map fun c => UInt8.ofNat c.toNat).foldl (fun n d => n * 10 + (d.toNat - 48)) init
        = Nat.ofDigitChars 10 l init := by
    intro l
    induction l with
    | nil => intro init _; rfl
    | cons c l ih =>
      intro init h
      rw [List.map_cons, List.foldl_cons, Nat.ofDigitChars_cons, ih _ fun x hx => h x (by simp [hx])]
      have : (UInt8.ofNat c.toNat).toNat = c.toNat := by
        rw [UInt8.toNat_ofNat']
        exact Nat.mod_eq_of_lt (h c (by simp))
      rw [this, Nat.mul_comm]
      rfl
  unfold number decimal
  rw [key _ _ ?_, Nat.ofDigitChars_ten_toDigits]
  intro c hc
  have := Nat.isDigit_of_mem_toDigits (by decide) (by decide) hc
  simp only [Char.isDigit, Bool.and_eq_true, decide_eq_true_eq] at this
  have h2 : c.toNat ≤ 57 := this.2
  omega

/-! ### Parts of the lines -/

theorem span_stop {p : UInt8 → Bool} {l s : Bytes} (hl : ∀ b ∈ l, p b = true)
    (hs : ∀ b, s.head? = some b → p b = false) :
    (l ++ s).takeWhile p = l ∧ (l ++ s).dropWhile p = s := by
  refine ⟨?_, (dropWhile_all hl).trans (dropWhile_stop hs)⟩
  induction l with
  | nil =>
    cases s with
    | nil => rfl
    | cons b s => exact List.takeWhile_cons_of_neg (by simp [hs b rfl])
  | cons b l ih =>
    rw [List.cons_append, List.takeWhile_cons_of_pos (hl b (by simp)), ih fun c hc => hl c (by simp [hc])]

/-- A method, a path: there is something in it, and there is no blank. -/
structure Word (w : Bytes) : Prop where
  ne : w ≠ []
  noBlank : ∀ b ∈ w, blank b = false

theorem word_stop {w rest : Bytes} (h : Word w) : word (w ++ sp :: rest) = some (w, sp :: rest) := by
  obtain ⟨h1, h2⟩ := span_stop (p := (!blank ·)) (l := w) (s := sp :: rest)
    (fun b hb => by simp [h.noBlank b hb]) (fun b hb => by
      simp only [List.head?_cons, Option.some.injEq] at hb; subst hb; decide)
  rw [word, h1, h2, if_neg h.ne]

theorem skipBlanks_one {rest : Bytes} (h : ∀ b, rest.head? = some b → blank b = false) :
    skipBlanks (sp :: rest) = some rest := by
  rw [skipBlanks, if_pos (by decide), dropWhile_stop h]

theorem digits_stop {rest : Bytes} (n : Nat) (h : ∀ b, rest.head? = some b → digit b = false) :
    digits (decimal n ++ rest) = some (decimal n, rest) := by
  obtain ⟨h1, h2⟩ := span_stop (digit_decimal n) h
  rw [digits, h1, h2, if_neg (decimal_ne n)]

theorem versionAt_written {rest : Bytes} (a b : Nat) (h : ∀ c, rest.head? = some c → digit c = false) :
    versionAt (http ++ decimal a ++ [dot] ++ decimal b ++ rest) = some (⟨a, b⟩, rest) := by
  have e : http ++ decimal a ++ [dot] ++ decimal b ++ rest = http ++ (decimal a ++ dot :: (decimal b ++ rest)) := by
    simp
  rw [e, versionAt, if_pos (by rw [List.isPrefixOf_iff_prefix]; exact List.prefix_append _ _), List.drop_left,
    digits_stop a (fun c hc => by simp only [List.head?_cons, Option.some.injEq] at hc; subst hc; decide)]
  simp only [Option.bind_eq_bind, Option.bind_some, if_true]
  rw [digits_stop b h]
  simp [number_decimal]

theorem lineEnd_behind {text rest : Bytes} (h : Behind text rest) : lineEnd text = some rest := by
  rcases h with ⟨rfl, rfl⟩ | rfl
  · rfl
  · rw [lineEnd, dropWhile_stop (p := blank)]
    · simp [crlf]
    · intro b hb
      simp only [crlf, List.cons_append, List.head?_cons, Option.some.injEq] at hb
      subst hb; decide

theorem behind_broken (items : List Header) : ∃ rest, Behind (broken items) rest := by
  cases items with
  | nil => exact ⟨[], Or.inl ⟨rfl, rfl⟩⟩
  | cons h items => exact ⟨headerLine h ++ broken items, Or.inr (by simp [broken])⟩

theorem broken_head (items : List Header) : ∀ c, (broken items).head? = some c → c = cr := by
  intro c hc
  cases items with
  | nil => cases hc
  | cons h items => simpa [broken, crlf] using hc.symm

theorem word_head {w : Bytes} (h : Word w) (rest : Bytes) : ∀ b, (w ++ rest).head? = some b → blank b = false := by
  intro b hb
  have := h.ne
  cases w with
  | nil => exact absurd rfl this
  | cons c w =>
    simp only [List.cons_append, List.head?_cons, Option.some.injEq] at hb
    subst hb
    exact h.noBlank _ (by simp)

theorem requestLine_written {method path : Bytes} (hm : Word method) (hp : Word path) (a b : Nat)
    {text rest : Bytes} (ht : ∀ c, text.head? = some c → c = cr) (h : Behind text rest) :
    requestLine (method ++ [sp] ++ path ++ [sp] ++ http ++ decimal a ++ [dot] ++ decimal b ++ text)
      = some ((method, path, ⟨a, b⟩), rest) := by
  have e : method ++ [sp] ++ path ++ [sp] ++ http ++ decimal a ++ [dot] ++ decimal b ++ text
      = method ++ sp :: (path ++ sp :: (http ++ decimal a ++ [dot] ++ decimal b ++ text)) := by simp
  rw [e, requestLine, dropWhile_stop (word_head hm _), word_stop hm]
  simp only [Option.bind_eq_bind, Option.bind_some]
  rw [skipBlanks_one (word_head hp _)]
  simp only [Option.bind_some]
  rw [word_stop hp]
  simp only [Option.bind_some]
  rw [skipBlanks_one (fun b hb => by
    simp only [http, List.cons_append, List.head?_cons, Option.some.injEq] at hb; subst hb; decide)]
  simp only [Option.bind_some]
  rw [versionAt_written a b (fun c hc => by rw [ht c hc]; decide)]
  simp only [Option.bind_some]
  rw [lineEnd_behind h]
  rfl

theorem oneLine_word {a b : Bytes} (ha : OneLine a) (hb : OneLine b) : OneLine (a ++ [sp] ++ b) := by
  rw [List.append_assoc]
  refine oneLine_append ha (oneLine_cons.mpr ⟨?_, hb⟩) (by simp [sp, lf])
  rintro ⟨h, _⟩
  exact absurd h (by decide)

theorem digit_ne_cr {b : UInt8} (h : digit b = true) : b ≠ cr := by rintro rfl; exact absurd h (by decide)

theorem not_cr_version (a b : Nat) : cr ∉ http ++ decimal a ++ [dot] ++ decimal b := by
  simp only [List.mem_append, not_or]
  refine ⟨⟨⟨by decide, ?_⟩, by decide⟩, ?_⟩
  · intro h; exact digit_ne_cr (digit_decimal _ _ h) rfl
  · intro h; exact digit_ne_cr (digit_decimal _ _ h) rfl

/-- What is read of a written request. -/
theorem readRequest_written (upper fold : Bytes → Bytes) {method path : Bytes} {d : Headers} (version : Version)
    (body : Bytes) (hm : Word method) (hml : OneLine method) (hp : Word path) (hpl : OneLine path)
    (hg : Good fold d) (hw : ∀ h ∈ d.items, Writable h) :
    readRequest upper fold (writeRequest method path d version ++ body)
      = some (⟨⟨version.major, version.major⟩, upper method, path, d⟩, body) := by
  have hline : OneLine (method ++ [sp] ++ path ++ [sp]
      ++ (http ++ decimal version.major ++ [dot] ++ decimal version.major)) :=
    oneLine_word (oneLine_word hml hpl) (oneLine_of_not_cr (not_cr_version _ _))
  have hcut := cutAt_written d.items hw body _ hline
  obtain ⟨rest, hr⟩ := behind_broken d.items
  have hreq := requestLine_written hm hp version.major version.major (broken_head d.items) hr
  unfold readRequest writeRequest writeHeaders
  simp only [List.append_assoc] at hcut hreq ⊢
  rw [hcut]
  simp only [Option.bind_eq_bind, Option.bind_some, parseRequest]
  rw [hreq]
  simp only [Option.bind_some]
  rw [parse_broken hg hw hr]
  rfl

/-! ### Status lines -/

/-- A reason phrase: there is no line feed in it, and no blank around it. -/
structure Phrase (phrase : Bytes) : Prop where
  noLf : lf ∉ phrase
  first : ∀ b, phrase.head? = some b → blank b = false
  last : ∀ b, phrase.getLast? = some b → blank b = false

theorem lineEnd_phrase {phrase text : Bytes} (hne : phrase ≠ []) (hlf : lf ∉ phrase)
    (hlast : ∀ b, phrase.getLast? = some b → blank b = false) (ht : ∀ c, text.head? = some c → c = cr) :
    lineEnd (phrase ++ text) = none := by
  induction phrase with
  | nil => exact absurd rfl hne
  | cons b phrase ih =>
    cases hb : blank b with
    | true =>
      have hne' : phrase ≠ [] := by
        rintro rfl
        rw [hlast b rfl] at hb; cases hb
      have h2 := ih hne' (fun h => hlf (by simp [h])) (fun c hc => hlast c (by
        cases phrase with
        | nil => exact absurd rfl hne'
        | cons x phrase => simpa using hc))
      rw [lineEnd, List.cons_append, List.dropWhile_cons_of_pos hb]
      exact h2
    | false =>
      rw [lineEnd, List.cons_append, List.dropWhile_cons_of_neg (by simp [hb])]
      have hb' : b ≠ lf := fun e => hlf (by simp [e])
      cases h : phrase ++ text with
      | nil => simp [hb']
      | cons c rest =>
        have hc : c ≠ lf := by
          cases phrase with
          | nil =>
            have := ht c (by rw [List.nil_append] at h; rw [h]; rfl)
            rw [this]; decide
          | cons x phrase =>
            simp only [List.cons_append, List.cons.injEq] at h
            rw [← h.1]
            intro e; exact hlf (by simp [e])
        simp [hc]

theorem reasonAt_phrase {phrase text rest : Bytes} (hlf : lf ∉ phrase)
    (hlast : ∀ b, phrase.getLast? = some b → blank b = false) (ht : ∀ c, text.head? = some c → c = cr)
    (h : Behind text rest) : reasonAt (phrase ++ text) = some (phrase, rest) := by
  induction phrase with
  | nil =>
    cases text with
    | nil =>
      rcases h with ⟨_, rfl⟩ | h
      · rfl
      · simp [crlf] at h
    | cons b text => rw [List.nil_append, reasonAt, lineEnd_behind h]
  | cons b phrase ih =>
    have h1 := lineEnd_phrase (by simp) hlf hlast ht
    have hb : b ≠ lf := fun e => hlf (by simp [e])
    have h2 := ih (fun h => hlf (by simp [h])) (fun c hc => hlast c (by
      cases phrase with
      | nil => cases hc
      | cons x phrase => simpa using hc))
    rw [List.cons_append] at h1 ⊢
    rw [reasonAt, h1]
    simp [hb, h2]

theorem threeDigits_decimal (n : Nat) (h1 : 100 ≤ n) (h2 : n < 1000) (rest : Bytes) :
    threeDigits (decimal n ++ rest) = some (n, rest) := by
  have hlen : (decimal n).length = 3 := by
    unfold decimal
    rw [List.length_map]
    have a : (Nat.toDigits 10 n).length ≤ 3 := (Nat.length_toDigits_le_iff (by decide) (by decide)).mpr (by omega)
    have b : ¬ (Nat.toDigits 10 n).length ≤ 2 := by
      rw [Nat.length_toDigits_le_iff (by decide) (by decide)]; omega
    omega
  have hd := digit_decimal n
  have hn := number_decimal n
  match hx : decimal n, hlen with
  | [a, b, c], _ =>
    rw [hx] at hd hn
    simp only [List.cons_append, List.nil_append, threeDigits, hd a (by simp), hd b (by simp), hd c (by simp),
      Bool.and_self, if_true, hn]

theorem statusLine_written (version : Version) (status : Nat) (h1 : 100 ≤ status) (h2 : status < 1000)
    {phrase : Bytes} (hp : Phrase phrase) {text rest : Bytes} (ht : ∀ c, text.head? = some c → c = cr)
    (h : Behind text rest) :
    statusLine (http ++ decimal version.major ++ [dot] ++ decimal version.minor ++ [sp] ++ decimal status ++ [sp]
      ++ phrase ++ text) = some ((version, status, if phrase = [] then none else some phrase), rest) := by
  have e : http ++ decimal version.major ++ [dot] ++ decimal version.minor ++ [sp] ++ decimal status ++ [sp]
      ++ phrase ++ text = http ++ decimal version.major ++ [dot] ++ decimal version.minor
        ++ (sp :: (decimal status ++ sp :: (phrase ++ text))) := by simp
  rw [e, statusLine, dropWhile_stop (fun b hb => by
    simp only [http, List.cons_append, List.head?_cons, Option.some.injEq] at hb; subst hb; decide),
    versionAt_written _ _ (fun c hc => by simp only [List.head?_cons, Option.some.injEq] at hc; subst hc; decide)]
  simp only [Option.bind_eq_bind, Option.bind_some]
  rw [skipBlanks_one (fun b hb => by
    have : b ∈ decimal status := by
      cases hd : decimal status with
      | nil => exact absurd hd (decimal_ne _)
      | cons c cs => rw [hd] at hb; simp at hb; simp [hb]
    have := digit_decimal _ _ this
    cases hx : blank b with
    | false => rfl
    | true =>
      simp only [blank, Bool.or_eq_true, decide_eq_true_eq] at hx
      rcases hx with rfl | rfl <;> exact absurd this (by decide))]
  simp only [Option.bind_some]
  rw [threeDigits_decimal status h1 h2]
  simp only [Option.bind_some]
  rw [skipBlanks_one (fun b hb => by
    cases phrase with
    | nil => rw [List.nil_append] at hb; rw [ht b hb]; decide
    | cons c phrase => exact hp.first b (by simpa using hb))]
  simp only
  rw [reasonAt_phrase hp.noLf hp.last ht h]
  rfl

/-- What is read of a written response. -/
theorem readResponse_written (fold : Bytes → Bytes) {d : Headers} (version : Version) (status : Nat)
    (h1 : 100 ≤ status) (h2 : status < 1000) {phrase : Bytes} (hp : Phrase phrase) (body : Bytes)
    (hg : Good fold d) (hw : ∀ h ∈ d.items, Writable h) :
    readResponse fold (writeResponse status phrase d version body)
      = some (⟨version, status, if phrase = [] then none else some phrase, d⟩, body) := by
  have hline : OneLine (http ++ decimal version.major ++ [dot] ++ decimal version.minor ++ [sp] ++ decimal status ++ [sp]
      ++ phrase) := by
    refine oneLine_word (oneLine_word (oneLine_of_not_cr (not_cr_version _ _)) (oneLine_of_not_cr ?_)) ?_
    · intro h; exact digit_ne_cr (digit_decimal _ _ h) rfl
    · intro a b e
      exact hp.noLf (by rw [e]; simp [crlf])
  have hcut := cutAt_written d.items hw body _ hline
  obtain ⟨rest, hr⟩ := behind_broken d.items
  have hst := statusLine_written version status h1 h2 hp (broken_head d.items) hr
  unfold readResponse writeResponse writeHeaders
  simp only [List.append_assoc] at hcut hst ⊢
  rw [hcut]
  simp only [Option.bind_eq_bind, Option.bind_some, parseResponse]
  rw [hst]
  simp only [Option.bind_some]
  rw [parse_broken hg hw hr]
  rfl

/-! ## C50: headers are read as they were written -/

/-- A token of RFC 7230. -/
def TokenBytes (bs : Bytes) : Prop := bs ≠ [] ∧ ∀ b ∈ bs, Header.tokenChar (Char.ofNat b.toNat) = true

theorem token_byte (b : UInt8) (h : Header.tokenChar (Char.ofNat b.toNat) = true) :
    b ≠ colon ∧ b ≠ cr ∧ white b = false ∧ blank b = false := by
  have : ∀ i : Fin 256, Header.tokenChar (Char.ofNat i.val) = true → UInt8.ofNat i.val ≠ colon ∧ UInt8.ofNat i.val ≠ cr ∧
      white (UInt8.ofNat i.val) = false ∧ blank (UInt8.ofNat i.val) = false := by decide +kernel
  have := this ⟨b.toNat, b.toNat_lt⟩ h
  simpa using this

/-- Tokens are names. -/
theorem Name.of_token {name : Bytes} (h : TokenBytes name) : Name name where
  ne := h.1
  line := oneLine_of_not_cr fun hm => (token_byte _ (h.2 _ hm)).2.1 rfl
  colon := fun hm => (token_byte _ (h.2 _ hm)).1 rfl
  first := fun b hb => (token_byte _ (h.2 b (List.mem_of_head? hb))).2.2.1

theorem Word.of_token {w : Bytes} (h : TokenBytes w) : Word w where
  ne := h.1
  noBlank := fun b hb => (token_byte _ (h.2 b hb)).2.2.2

/-- **C50, requests.** The headers of a request that is written are the headers of the request that is
read from the stream, and what is behind the request stays in the stream. -/
theorem C50_request (upper fold : Bytes → Bytes) {method path : Bytes} {d : Headers} (version : Version)
    (body : Bytes) (hm : TokenBytes method) (hp : Word path) (hpl : OneLine path)
    (hg : Good fold d) (hw : ∀ h ∈ d.items, TokenBytes h.1 ∧ Part h.2) :
    ∃ request, readRequest upper fold (writeRequest method path d version ++ body) = some (request, body) ∧
      request.headers = d :=
  ⟨_, readRequest_written upper fold version body (Word.of_token hm) (Name.of_token hm).line hp hpl hg
    fun h hh => ⟨Name.of_token (hw h hh).1, (hw h hh).2⟩, rfl⟩

/-- **C50, responses.** -/
theorem C50_response (fold : Bytes → Bytes) {d : Headers} (version : Version) (status : Nat)
    (h1 : 100 ≤ status) (h2 : status < 1000) {phrase : Bytes} (hp : Phrase phrase) (body : Bytes)
    (hg : Good fold d) (hw : ∀ h ∈ d.items, TokenBytes h.1 ∧ Part h.2) :
    ∃ response, readResponse fold (writeResponse status phrase d version body) = some (response, body) ∧
      response.headers = d :=
  ⟨_, readResponse_written fold version status h1 h2 hp body hg
    fun h hh => ⟨Name.of_token (hw h hh).1, (hw h hh).2⟩, rfl⟩

/-- A request with two headers, one of them with two values. -/
example : readRequest id id (writeRequest (bytes "GET") (bytes "/a") [(bytes "Host", [bytes "x"]),
      (bytes "Cookie", [bytes "a=b", bytes "c d"])] ⟨1, 1⟩ ++ bytes "body")
    = some (⟨⟨1, 1⟩, bytes "GET", bytes "/a", [(bytes "Host", [bytes "x"]), (bytes "Cookie", [bytes "a=b", bytes "c d"])]⟩,
      bytes "body") := by
  refine readRequest_written id id ⟨1, 1⟩ _ ⟨by decide, by decide⟩ (oneLine_of_not_cr (by decide)) ⟨by decide, by decide⟩
    (oneLine_of_not_cr (by decide)) ⟨by decide, by decide⟩ ?_
  have part : ∀ bs : Bytes, cr ∉ bs → (∀ b ∈ bs.head?, white b = false) → (∀ b ∈ bs.getLast?, white b = false) → Part bs :=
    fun bs h1 h2 h3 => ⟨oneLine_of_not_cr h1, h2, h3⟩
  have hname : ∀ name ∈ [bytes "Host", bytes "Cookie"], TokenBytes name := by
    have : ∀ name ∈ [bytes "Host", bytes "Cookie"], name ≠ [] ∧ ∀ b ∈ name, Header.tokenChar (Char.ofNat b.toNat) = true := by
      decide
    exact this
  have hvalue : ∀ v ∈ [bytes "x", bytes "a=b", bytes "c d"], Part v := by
    have : ∀ v ∈ [bytes "x", bytes "a=b", bytes "c d"], cr ∉ v ∧ (∀ b ∈ v.head?, white b = false) ∧
      ∀ b ∈ v.getLast?, white b = false := by decide
    exact fun v hv => part v (this v hv).1 (this v hv).2.1 (this v hv).2.2
  intro h hh
  have : (h.1 ∈ [bytes "Host", bytes "Cookie"]) ∧ h.2 ∈ [bytes "x", bytes "a=b", bytes "c d"] := by
    revert h; decide
  exact ⟨Name.of_token (hname _ this.1), hvalue _ this.2⟩

/-- A value over three lines. -/
example : Writes [(bytes "A", bytes "b c  d"), (bytes "E", [])] (bytes "A:\tb c \r\n  \r\n\td\r\nE:") := by
  have part : ∀ bs : Bytes, cr ∉ bs → (∀ b ∈ bs.head?, white b = false) → (∀ b ∈ bs.getLast?, white b = false) → Part bs :=
    fun bs h1 h2 h3 => ⟨oneLine_of_not_cr h1, h2, h3⟩
  have f : Folds [[], bytes "d"] (crlf ++ 32 :: bytes " " ++ (crlf ++ 9 :: bytes "d" ++ [])) :=
    Folds.cons (by decide) (part _ (by decide) (by decide) (by decide)) ⟨[32], [], by decide, by decide, by decide⟩
      (Folds.cons (by decide) (part _ (by decide) (by decide) (by decide)) ⟨[], [], by decide, by decide, by decide⟩ Folds.nil)
  have a := HeaderText.mk (name := bytes "A") (part := bytes "b c") (text := bytes "\tb c ")
    ⟨by decide, oneLine_of_not_cr (by decide), by decide, by decide⟩ (part _ (by decide) (by decide) (by decide))
    ⟨[9], [32], by decide, by decide, by decide⟩ f
  have b := HeaderText.mk (name := bytes "E") (part := []) (text := [])
    ⟨by decide, oneLine_of_not_cr (by decide), by decide, by decide⟩ (part _ (by decide) (by decide) (by decide))
    ⟨[], [], by decide, by decide, by decide⟩ Folds.nil
  exact Writes.cons a (Writes.last b)

/-! ## C85: the request line -/

/-- **C85, partial.** The method, the path and the version of a request that is written are those of
the request that is read, if both numbers of the version are the same. -/
theorem C85_partial (upper fold : Bytes → Bytes) {method path : Bytes} {d : Headers} (version : Version)
    (body : Bytes) (hm : TokenBytes method) (hu : upper method = method) (hp : Word path) (hpl : OneLine path)
    (hg : Good fold d) (hw : ∀ h ∈ d.items, TokenBytes h.1 ∧ Part h.2) (hv : version.major = version.minor) :
    readRequest upper fold (writeRequest method path d version ++ body) = some (⟨version, method, path, d⟩, body) := by
  rw [readRequest_written upper fold version body (Word.of_token hm) (Name.of_token hm).line hp hpl hg
    fun h hh => ⟨Name.of_token (hw h hh).1, (hw h hh).2⟩, hu]
  obtain ⟨a, b⟩ := version
  simp only at hv
  rw [hv]

/-- **C85 is violated** for every other version, HTTP/1.0 among them: another version is read than was
written. -/
theorem C85_violated (upper fold : Bytes → Bytes) {method path : Bytes} {d : Headers} (version : Version)
    (body : Bytes) (hm : TokenBytes method) (hp : Word path) (hpl : OneLine path)
    (hg : Good fold d) (hw : ∀ h ∈ d.items, TokenBytes h.1 ∧ Part h.2) (hv : version.major ≠ version.minor) :
    ∃ request, readRequest upper fold (writeRequest method path d version ++ body) = some (request, body) ∧
      request.version ≠ version := by
  refine ⟨_, readRequest_written upper fold version body (Word.of_token hm) (Name.of_token hm).line hp hpl hg
    fun h hh => ⟨Name.of_token (hw h hh).1, (hw h hh).2⟩, ?_⟩
  intro e
  exact hv (by rw [← e])

/-- The bytes of HTTP/1.0 say HTTP/1.1. -/
example : writeRequest (bytes "GET") (bytes "/") [] ⟨1, 0⟩ = bytes "GET / HTTP/1.1\r\n\r\n" := by decide

/-! ## C86: the status line -/

/-- **C86.** The version, the status and the phrase of a response that is written are those of the
response that is read; an empty phrase is read as none. -/
theorem C86_response (fold : Bytes → Bytes) {d : Headers} (version : Version) (status : Nat)
    (h1 : 100 ≤ status) (h2 : status < 1000) {phrase : Bytes} (hp : Phrase phrase) (body : Bytes)
    (hg : Good fold d) (hw : ∀ h ∈ d.items, TokenBytes h.1 ∧ Part h.2) :
    readResponse fold (writeResponse status phrase d version body)
      = some (⟨version, status, if phrase = [] then none else some phrase, d⟩, body) :=
  readResponse_written fold version status h1 h2 hp body hg fun h hh => ⟨Name.of_token (hw h hh).1, (hw h hh).2⟩

example : Phrase (bytes "Not Found") := ⟨by decide, by decide, by decide⟩
example : writeResponse 404 (bytes "Not Found") [(bytes "A", [bytes "b"])] ⟨1, 0⟩ (bytes "c")
    = bytes "HTTP/1.0 404 Not Found\r\nA: b\r\n\r\nc" := by decide

end Verif.Http
