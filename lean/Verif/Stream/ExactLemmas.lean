import Verif.Stream.Spec
namespace Verif.Stream
variable {α : Type}

theorem WF.nonempty {s : RState α} (h : WF s) : ∀ c ∈ s.chunks, c ≠ [] := h.1

theorem yield_ok {pre : List (List α)} {out rest} :
    (RRes.ok out rest).yield pre = RRes.ok (pre ++ out) rest := rfl

theorem readExactlyLoop_ok (atEof : Bool) (stale : Nat) :
    ∀ (chunks : List (List α)) (n : Nat), 0 < n → (∀ c ∈ chunks, c ≠ []) → n ≤ chunks.flatten.length →
      ∃ out s', readExactlyLoop atEof stale n chunks = .ok out s' ∧ out.flatten = chunks.flatten.take n ∧
        unread s' = chunks.flatten.drop n ∧ WF s' ∧ s'.atEof = atEof := by
  intro chunks
  induction chunks with
  | nil => intro n hn _ hlen; simp at hlen; omega
  | cons c cs ih =>
    intro n hn hne hlen
    have hcs : ∀ c ∈ cs, c ≠ [] := fun x hx => hne x (List.mem_cons_of_mem _ hx)
    have hc : c ≠ [] := hne c List.mem_cons_self
    have hcl : 0 < c.length := List.length_pos_iff.mpr hc
    simp only [List.flatten_cons, List.length_append] at hlen
    unfold readExactlyLoop
    split
    · rename_i hlt
      obtain ⟨out, s', h1, h2, h3, h4, h5⟩ := ih (n - c.length) (by omega) hcs (by omega)
      refine ⟨c :: out, s', by rw [h1]; rfl, ?_, ?_, h4, h5⟩
      · simp [h2, List.take_append, List.take_of_length_le (Nat.le_of_lt hlt)]
      · simp [h3, List.drop_append, List.drop_of_length_le (Nat.le_of_lt hlt)]
    · split
      · rename_i h1 heq
        subst heq
        refine ⟨[c], ⟨cs, 0, atEof⟩, rfl, ?_, ?_, ⟨hcs, ?_⟩, rfl⟩
        · simp
        · simp [unread]
        · cases cs with
          | nil => rfl
          | cons d ds => exact List.length_pos_iff.mpr (hcs d List.mem_cons_self)
      · rename_i h1 h2
        refine ⟨[c.take n], ⟨c :: cs, n, atEof⟩, rfl, ?_, rfl, ⟨hne, ?_⟩, rfl⟩
        · have hx : n ≤ c.length := by omega
          simp [List.take_append_of_le_length hx]
        · show n < c.length; omega

theorem readExactlyLoop_eof (atEof : Bool) (stale : Nat) :
    ∀ (chunks : List (List α)) (n : Nat), chunks.flatten.length < n →
      ∃ out s', readExactlyLoop atEof stale n chunks = .eof out s' ∧ out.flatten = chunks.flatten ∧ s'.chunks = [] := by
  intro chunks
  induction chunks with
  | nil => intro n _; exact ⟨[], _, rfl, rfl, rfl⟩
  | cons c cs ih =>
    intro n hlen
    simp only [List.flatten_cons, List.length_append] at hlen
    unfold readExactlyLoop
    have hlt : c.length < n := by omega
    rw [if_pos hlt]
    obtain ⟨out, s', h1, h2, h3⟩ := ih (n - c.length) (by omega)
    exact ⟨c :: out, s', by rw [h1]; rfl, by simp [h2], h3⟩

theorem WF_tail {c : List α} {cs : List (List α)} (h : ∀ x ∈ c :: cs, x ≠ []) (b : Bool) : WF ⟨cs, 0, b⟩ := by
  refine ⟨fun x hx => h x (List.mem_cons_of_mem _ hx), ?_⟩
  cases cs with
  | nil => rfl
  | cons d ds => exact List.length_pos_iff.mpr (h d (by simp))

theorem readExactly_ok (s : RState α) (hs : WF s) (n : Nat) (hn : 0 < n) (hlen : n ≤ (unread s).length) :
    ∃ out s', readExactly n s = .ok out s' ∧ out.flatten = (unread s).take n ∧
        unread s' = (unread s).drop n ∧ WF s' ∧ s'.atEof = s.atEof := by
  obtain ⟨chunks, offset, atEof⟩ := s
  cases chunks with
  | nil => simp [unread] at hlen; omega
  | cons c cs =>
    obtain ⟨hne, hoff⟩ := hs
    have hoff : offset < c.length := hoff
    have hcs : ∀ x ∈ cs, x ≠ [] := fun x hx => hne x (List.mem_cons_of_mem _ hx)
    simp only [unread, List.flatten_cons, List.drop_append_of_le_length (Nat.le_of_lt hoff), List.length_append,
      List.length_drop] at hlen
    simp only [unread, List.flatten_cons, List.drop_append_of_le_length (Nat.le_of_lt hoff)]
    unfold readExactly
    simp only
    split
    · rename_i h0
      subst h0
      simp only [List.drop_zero]
      split
      · rename_i h1
        exact ⟨_, _, rfl, by simp [List.take_append_of_le_length (Nat.le_of_lt h1)], by simp, ⟨hne, h1⟩, rfl⟩
      · split
        · rename_i h1 h2
          subst h2
          exact ⟨_, _, rfl, by simp, by simp, WF_tail hne _, rfl⟩
        · rename_i h1 h2
          obtain ⟨out, s', e1, e2, e3, e4, e5⟩ :=
            readExactlyLoop_ok atEof 0 cs (n - c.length) (by omega) hcs (by omega)
          refine ⟨c :: out, s', by rw [e1]; rfl, ?_, ?_, e4, e5⟩
          · simp only [List.flatten_cons, e2]
            rw [List.take_append, List.take_of_length_le (by omega : c.length ≤ n)]
          · simp only [unread] at e3
            rw [e3, List.drop_append, List.drop_of_length_le (by omega : c.length ≤ n)]; rfl
    · rename_i h0
      split
      · rename_i h1
        refine ⟨_, _, rfl, ?_, ?_, ⟨hne, h1⟩, rfl⟩
        · have : n ≤ (c.drop offset).length := by simp; omega
          rw [List.take_append_of_le_length this]
          simp [List.drop_take]
        · have : n ≤ (c.drop offset).length := by simp; omega
          rw [List.drop_append_of_le_length this]
          simp only [List.drop_drop, List.flatten_cons]
          rw [List.drop_append_of_le_length (Nat.le_of_lt h1)]
      · split
        · rename_i h1 h2
          have hl : (c.drop offset).length = n := by simp; omega
          refine ⟨_, _, rfl, ?_, ?_, WF_tail hne _, rfl⟩
          · simp [← hl]
          · simp [← hl]
        · rename_i h1 h2
          obtain ⟨out, s', e1, e2, e3, e4, e5⟩ :=
            readExactlyLoop_ok atEof offset cs (n - (c.length - offset)) (by omega) hcs (by omega)
          have hl : (c.drop offset).length ≤ n := by simp; omega
          refine ⟨c.drop offset :: out, s', by rw [e1]; rfl, ?_, ?_, e4, e5⟩
          · simp only [List.flatten_cons, e2]
            rw [List.take_append, List.take_of_length_le hl]; simp
          · simp only [unread] at e3
            rw [e3, List.drop_append, List.drop_of_length_le hl]; simp

theorem readExactly_eof (s : RState α) (hs : WF s) (n : Nat) (hlen : (unread s).length < n) :
    ∃ out s', readExactly n s = .eof out s' ∧ out.flatten = unread s ∧ s'.chunks = [] := by
  obtain ⟨chunks, offset, atEof⟩ := s
  cases chunks with
  | nil => exact ⟨_, _, rfl, by simp [unread], rfl⟩
  | cons c cs =>
    obtain ⟨hne, hoff⟩ := hs
    have hoff : offset < c.length := hoff
    simp only [unread, List.flatten_cons, List.drop_append_of_le_length (Nat.le_of_lt hoff), List.length_append,
      List.length_drop] at hlen
    simp only [unread, List.flatten_cons, List.drop_append_of_le_length (Nat.le_of_lt hoff)]
    unfold readExactly
    simp only
    split
    · rename_i h0
      subst h0
      rw [if_neg (by omega), if_neg (by omega)]
      obtain ⟨out, s', e1, e2, e3⟩ := readExactlyLoop_eof atEof 0 cs (n - c.length) (by omega)
      exact ⟨c :: out, s', by rw [e1]; rfl, by simp [e2], e3⟩
    · rw [if_neg (by omega), if_neg (by omega)]
      obtain ⟨out, s', e1, e2, e3⟩ := readExactlyLoop_eof atEof offset cs (n - (c.length - offset)) (by omega)
      exact ⟨c.drop offset :: out, s', by rw [e1]; rfl, by simp [e2], e3⟩

end Verif.Stream
