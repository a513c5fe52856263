import Verif.Http.PropsLines

/-!
# Properties of heads of HTTP messages: what is accepted, and what can be smuggled

C87, C88, C89.
-/

namespace Verif.Http

open MultiDict (Good)

/-! ## C87: names and values that are accepted -/

theorem OneLine.of_infix {a b : Bytes} (h : a <:+: b) (hb : OneLine b) : OneLine a := by
  obtain ⟨s, t, rfl⟩ := h
  intro x y e
  subst e
  exact hb (s ++ x) (y ++ t) (by simp)

theorem cutLine_head (bs : Bytes) (c : UInt8) (h : (cutLine bs).1.head? = some c) : bs.head? = some c := by
  cases bs with
  | nil => cases h
  | cons b bs =>
    unfold cutLine at h
    split at h
    · cases h
    · exact h

theorem oneLine_cutLine (bs : Bytes) : OneLine (cutLine bs).1 := by
  induction bs with
  | nil => exact oneLine_nil
  | cons b bs ih =>
    unfold cutLine
    split
    · exact oneLine_nil
    · rename_i h
      rw [oneLine_cons]
      exact ⟨fun ⟨h1, h2⟩ => h ⟨h1, cutLine_head bs _ h2⟩, ih⟩

theorem strip_infix (bs : Bytes) : strip bs <:+: bs := by
  have h1 : lstrip bs <:+ bs := List.dropWhile_suffix _
  have h2 : strip bs <+: lstrip bs := by
    rw [← List.reverse_suffix]
    unfold strip
    rw [List.reverse_reverse]
    exact List.dropWhile_suffix _
  exact h2.isInfix.trans h1.isInfix

theorem continued_oneLine (data : Bytes) : ∀ part ∈ (continued data).1, OneLine part := by
  fun_induction continued data with
  | case1 data h rest ih =>
    intro part hp
    rcases List.mem_cons.mp hp with rfl | hp
    · exact (oneLine_cutLine data).of_infix (strip_infix _)
    · exact ih part hp
  | case2 => intro part hp; cases hp

theorem joinSpace_oneLine (parts : List Bytes) (h : ∀ part ∈ parts, OneLine part) : OneLine (joinSpace parts) := by
  fun_induction joinSpace parts with
  | case1 => exact oneLine_nil
  | case2 part => exact h part (by simp)
  | case3 part parts hne ih =>
    have := ih fun p hp => h p (by simp [hp])
    have := oneLine_word (h part (by simp)) this
    simpa using this

/-- **C87, partial.** Whatever the data is: there is no colon and no line break in a name, it does not
begin with white space, and there is no line break in a value. -/
theorem C87_partial (data : Bytes) (headers : List Header) (h : parseLines data = some headers) :
    ∀ x ∈ headers, colon ∉ x.1 ∧ OneLine x.1 ∧ (∀ b, x.1.head? = some b → white b = false) ∧ OneLine x.2 := by
  fun_induction parseLines data generalizing headers with
  | case1 => cases h; simp
  | case2 => cases h
  | case3 => cases h
  | case4 data h1 h2 name value rest hrest ih =>
    cases h
    intro x hx
    rcases List.mem_cons.mp hx with rfl | hx
    · have hname : name <:+: (cutLine data).1 :=
        (List.dropWhile_suffix (l := (cutLine data).1.takeWhile (· ≠ colon)) white).isInfix.trans
          (List.takeWhile_prefix _).isInfix
      refine ⟨?_, (oneLine_cutLine data).of_infix hname, ?_, ?_⟩
      · intro hc
        have hc' : colon ∈ (cutLine data).1.takeWhile (· ≠ colon) := (List.dropWhile_suffix white).subset hc
        have := List.all_takeWhile (p := fun b : UInt8 => decide (b ≠ colon)) (l := (cutLine data).1)
        rw [List.all_eq_true] at this
        exact absurd (this _ hc') (by simp)
      · intro b hb
        have := List.head?_dropWhile_not white ((cutLine data).1.takeWhile (· ≠ colon))
        have hb' : (List.dropWhile white ((cutLine data).1.takeWhile (· ≠ colon))).head? = some b := hb
        rw [hb'] at this
        simpa using this
      · apply joinSpace_oneLine
        intro part hp
        rcases List.mem_cons.mp hp with rfl | hp
        · refine (oneLine_cutLine data).of_infix ((strip_infix _).trans ?_)
          exact ((List.drop_suffix 1 _).trans (List.dropWhile_suffix _)).isInfix
        · exact continued_oneLine _ part hp
    · exact ih rest hrest x hx

/-- **C87 is violated**: white space in front of the colon belongs to the name, which is no token
then. -/
theorem C87_violated (name value : Bytes) (hn : TokenBytes name) (hv : Part value) :
    parseLines (name ++ [sp, colon] ++ value) = some [(name ++ [sp], value)] ∧ ¬ TokenBytes (name ++ [sp]) := by
  constructor
  · have hname : Name (name ++ [sp]) := {
      ne := by simp
      line := oneLine_append (Name.of_token hn).line (oneLine_of_not_cr (by decide)) (by decide)
      colon := by
        have := (Name.of_token hn).colon
        simp only [List.mem_append, not_or]
        exact ⟨this, by decide⟩
      first := by
        have h1 := hn.1
        have h2 := (Name.of_token hn).first
        cases name with
        | nil => exact absurd rfl h1
        | cons b name => exact fun c hc => h2 c (by simpa using hc) }
    have := Writes.last (HeaderText.mk hname hv (text := value) ⟨[], [], by simp, by simp, by simp⟩ Folds.nil)
    have := C50_layout this
    simpa [joinSpace] using this
  · intro h
    exact absurd (h.2 sp (by simp)) (by decide)

/-- **C87 is violated**: there are even headers without a name. -/
theorem C87_empty_violated (value : Bytes) (hv : Part value) :
    parseLines ([sp, colon] ++ value) = some [([], value)] := by
  have hline : OneLine ([sp, colon] ++ value) :=
    oneLine_append (oneLine_of_not_cr (by decide)) hv.line fun e => absurd (hv.first _ e) (by decide)
  have hcut := cutLine_end hline (rest := []) (rest' := []) (Or.inl ⟨rfl, rfl⟩)
  rw [List.append_nil] at hcut
  have hs : strip value = value := strip_padded hv ⟨[], [], by simp, by simp, by simp⟩
  rw [parseLines, hcut]
  simp only
  rw [dif_neg (by simp), if_neg (by simp [sp, colon]), continued_stop rfl, parseLines_nil]
  simp [sp, colon, lstrip, white, joinSpace, hs]

/-! ## C88: request lines that are accepted -/

theorem word_some {bs w rest : Bytes} (h : word bs = some (w, rest)) : Word w := by
  unfold word at h
  split at h
  · cases h
  · rename_i hne
    cases h
    refine ⟨hne, fun b hb => ?_⟩
    have := List.all_takeWhile (p := fun b => !blank b) (l := bs)
    rw [List.all_eq_true] at this
    simpa using this b hb

/-- **C88, partial.** The method and the path of a request line that is accepted are not empty, and
there is no blank in them. -/
theorem C88_partial (data method path rest : Bytes) (version : Version)
    (h : requestLine data = some ((method, path, version), rest)) : Word method ∧ Word path := by
  unfold requestLine at h
  simp only [Option.bind_eq_bind, Option.bind_eq_some_iff] at h
  obtain ⟨⟨m, s1⟩, h1, s2, h2, ⟨p, s3⟩, h3, s4, h4, ⟨v, s5⟩, h5, s6, h6, h7⟩ := h
  simp only [Option.pure_def, Option.some.injEq, Prod.mk.injEq] at h7
  obtain ⟨⟨rfl, rfl, rfl⟩, rfl⟩ := h7
  exact ⟨word_some h1, word_some h3⟩

/-- **C88 is violated**: the path can be taken from two lines. -/
theorem C88_violated (upper fold : Bytes → Bytes) (method path next : Bytes) (hm : TokenBytes method)
    (hp : Word path) (hn : Word next) :
    parseRequest upper fold (method ++ [sp] ++ (path ++ crlf ++ next) ++ [sp] ++ bytes "HTTP/1.1")
        = some ⟨⟨1, 1⟩, upper method, path ++ crlf ++ next, []⟩ ∧
      ¬ OneLine (path ++ crlf ++ next) := by
  constructor
  · have hw : Word (path ++ crlf ++ next) := by
      refine ⟨by simp [crlf], fun b hb => ?_⟩
      simp only [List.mem_append] at hb
      rcases hb with (hb | hb) | hb
      · exact hp.noBlank b hb
      · have : ∀ b ∈ crlf, blank b = false := by decide
        exact this b hb
      · exact hn.noBlank b hb
    have := requestLine_written (Word.of_token hm) hw 1 1 (text := []) (rest := []) (by simp) (Or.inl ⟨rfl, rfl⟩)
    rw [List.append_nil] at this
    have e : bytes "HTTP/1.1" = http ++ decimal 1 ++ [dot] ++ decimal 1 := by decide
    rw [e, parseRequest]
    simp only [List.append_assoc] at this ⊢
    rw [this]
    simp [parseHeaders, parseLines_nil]
  · intro h
    exact h path next rfl

example : parseRequest id id (bytes "GET /a\r\nHost:b HTTP/1.1") = some ⟨⟨1, 1⟩, bytes "GET", bytes "/a\r\nHost:b", []⟩ :=
  (C88_violated id id (bytes "GET") (bytes "/a") (bytes "Host:b") ⟨by decide, by decide⟩ ⟨by decide, by decide⟩
    ⟨by decide, by decide⟩).1

theorem reasonAt_noLf (bs reason rest : Bytes) (h : reasonAt bs = some (reason, rest)) : lf ∉ reason := by
  induction bs generalizing reason rest with
  | nil => cases h; simp
  | cons b bs ih =>
    rw [reasonAt] at h
    split at h
    · cases h; simp
    · split at h
      · cases h
      · rename_i hb
        obtain ⟨⟨r, s⟩, h1, h2⟩ := Option.map_eq_some_iff.mp h
        cases h2
        intro hm
        rcases List.mem_cons.mp hm with e | hm
        · exact hb e.symm
        · exact ih r _ h1 hm

/-- **C88, partial.** The reason of a status line that is accepted is one line. -/
theorem C88_reason_partial (data rest reason : Bytes) (version : Version) (status : Nat)
    (h : statusLine data = some ((version, status, some reason), rest)) : lf ∉ reason := by
  unfold statusLine at h
  simp only [Option.bind_eq_bind, Option.bind_eq_some_iff] at h
  obtain ⟨⟨v, s1⟩, h1, s2, h2, ⟨st, s3⟩, h3, h4⟩ := h
  simp only at h4
  split at h4
  · obtain ⟨s4, h5, h6⟩ := Option.bind_eq_some_iff.mp h4
    simp at h6
  · obtain ⟨⟨r, s4⟩, h5, h6⟩ := Option.bind_eq_some_iff.mp h4
    simp only [Option.pure_def, Option.some.injEq, Prod.mk.injEq] at h6
    have : reason = r := by
      have := h6.1.2.2
      split at this
      · cases this
      · exact (Option.some.inj this).symm
    rw [this]
    exact reasonAt_noLf _ _ _ h5

/-! ## C89: what is written is what was asked for -/

/-- **C89, partial.** As long as all names are tokens and all values are single lines without white
space around them, the head that is written has the given headers and no others. -/
theorem C89_partial (upper fold : Bytes → Bytes) {method path : Bytes} {d : Headers} (version : Version)
    (body : Bytes) (hm : TokenBytes method) (hp : Word path) (hpl : OneLine path)
    (hg : Good fold d) (hw : ∀ h ∈ d.items, TokenBytes h.1 ∧ Part h.2) :
    ∃ request, readRequest upper fold (writeRequest method path d version ++ body) = some (request, body) ∧
      request.headers.items = d.items := by
  obtain ⟨request, h1, h2⟩ := C50_request upper fold version body hm hp hpl hg hw
  exact ⟨request, h1, by rw [h2]⟩

/-- **C89 is violated**: a value with a line break writes a further header. -/
theorem C89_violated (upper fold : Bytes → Bytes) (name value name' value' : Bytes)
    (hn : TokenBytes name) (hv : Part value) (hn' : TokenBytes name') (hv' : Part value')
    (hne : fold name ≠ fold name') (version : Version) :
    ∃ request, readRequest upper fold (writeRequest (bytes "GET") (bytes "/")
        [(name, [value ++ crlf ++ name' ++ [colon, sp] ++ value'])] version) = some (request, []) ∧
      request.headers = [(name, [value]), (name', [value'])] := by
  have e : writeRequest (bytes "GET") (bytes "/") [(name, [value ++ crlf ++ name' ++ [colon, sp] ++ value'])] version
      = writeRequest (bytes "GET") (bytes "/") [(name, [value]), (name', [value'])] version ++ [] := by
    simp [writeRequest, writeHeaders, MultiDict.Dict.items]
  rw [e]
  refine C50_request upper fold version [] ⟨by decide, by decide⟩ ⟨by decide, by decide⟩ (oneLine_of_not_cr (by decide))
    ⟨by simp [hne], by simp⟩ ?_
  intro h hh
  simp only [MultiDict.Dict.items, List.flatMap_cons, List.map_cons, List.map_nil, List.flatMap_nil, List.append_nil,
    List.cons_append, List.nil_append, List.mem_cons, List.not_mem_nil, or_false] at hh
  rcases hh with rfl | rfl
  · exact ⟨hn, hv⟩
  · exact ⟨hn', hv'⟩

end Verif.Http
