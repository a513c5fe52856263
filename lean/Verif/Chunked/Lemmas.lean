import Verif.Chunked.Spec
import Verif.Stream.UntilLemmas
namespace Verif.Chunked
open Verif.Stream

/-! ### lines -/

theorem splitLine_eq : ∀ (s l r : List Byte), splitLine s = some (l, r) → s = l ++ crlf ++ r
  | [], _, _, h => by simp [splitLine] at h
  | [_], _, _, h => by simp [splitLine] at h
  | a :: b :: rest, l, r, h => by
    unfold splitLine at h
    split at h
    · rename_i hab
      simp at h; obtain ⟨rfl, rfl⟩ := h; simp [crlf, hab]
    · match hs : splitLine (b :: rest) with
      | none => rw [hs] at h; simp at h
      | some (l', r') =>
        rw [hs] at h; simp at h
        obtain ⟨rfl, rfl⟩ := h
        rw [splitLine_eq _ _ _ hs]; simp

theorem splitLine_min : ∀ (s pre post : List Byte), s = pre ++ crlf ++ post →
    ∃ l r, splitLine s = some (l, r) ∧ l.length ≤ pre.length
  | [], pre, post, h => by cases pre <;> simp [crlf] at h
  | [_], pre, post, h => by
    have := congrArg List.length h
    simp [crlf] at this; omega
  | a :: b :: rest, pre, post, h => by
    unfold splitLine
    split
    · exact ⟨_, _, rfl, by simp⟩
    · rename_i hab
      cases pre with
      | nil => simp [crlf] at h; exact absurd ⟨h.1, h.2.1⟩ hab
      | cons p pre =>
        simp at h
        obtain ⟨l, r, e1, e2⟩ := splitLine_min (b :: rest) pre post (by simp [h])
        exact ⟨a :: l, r, by rw [e1]; rfl, by simpa using e2⟩

theorem splitLine_first {s l r : List Byte} (h : splitLine s = some (l, r)) : FirstOccurrence crlf s l r := by
  refine ⟨splitLine_eq _ _ _ h, fun pre' post' he => ?_⟩
  obtain ⟨l', r', e1, e2⟩ := splitLine_min _ _ _ he
  rw [h] at e1; simp at e1; rw [e1.1]; exact e2

theorem splitLine_none {s : List Byte} (h : splitLine s = none) : ∀ i, ¬ Occ crlf s i := by
  intro i hocc
  obtain ⟨t, ht⟩ := hocc
  obtain ⟨l, r, e, _⟩ := splitLine_min s (s.take i) t (by rw [List.append_assoc, ht, List.take_append_drop])
  rw [h] at e; contradiction

theorem splitLine_append {l : List Byte} (hl : ∀ b ∈ l, b ≠ 13) (r : List Byte) :
    splitLine (l ++ crlf ++ r) = some (l, r) := by
  induction l with
  | nil => simp [crlf, splitLine]
  | cons a l ih =>
    have ih := ih (fun b hb => hl b (by simp [hb]))
    have ha : a ≠ 13 := hl a (by simp)
    cases l with
    | nil =>
      simp only [List.cons_append, List.nil_append, crlf] at ih ⊢
      rw [splitLine, if_neg (by simp [ha]), ih]; rfl
    | cons b l =>
      simp only [List.cons_append] at ih ⊢
      rw [splitLine, if_neg (by simp [ha]), ih]; rfl

/-! ### refinement of the reader -/

theorem outcome_yield (pre : List (List Byte)) (r : ChunkedRes) {d : List Byte} {e : End}
    (h : outcome r = (d, some e)) : outcome (r.yield pre) = (pre.flatten ++ d, some e) := by
  cases r <;> simp_all [outcome, ChunkedRes.yield]

theorem readUntil_line_ok {s : RState Byte} (hs : WF s) (hu : Uncut 13 10 s.chunks) {l r : List Byte}
    (h : splitLine (unread s) = some (l, r)) :
    ∃ out s', readUntil crlf s = .ok out s' ∧ out.flatten = l ∧ unread s' = r ∧ WF s' ∧ Uncut 13 10 s'.chunks := by
  obtain ⟨hf, hpre, hpost⟩ := first_iff.mp (splitLine_first h)
  obtain ⟨out, s', h1, h2, h3, h4, _⟩ := (readUntil_achieves (b := crlf) (by simp [crlf]) s hs (uncut_good hs hu)).1 _ hf
  exact ⟨out, s', h1, by rw [h2, ← hpre], by rw [h3, ← hpost], h4, hu.suffix (readUntil_suffix h1)⟩

theorem readUntil_line_eof {s : RState Byte} (hs : WF s) (hu : Uncut 13 10 s.chunks)
    (h : splitLine (unread s) = none) : ∃ out s', readUntil crlf s = .eof out s' :=
  (readUntil_achieves (b := crlf) (by simp [crlf]) s hs (uncut_good hs hu)).2 (splitLine_none h)

theorem readExactly_any {s : RState Byte} (hs : WF s) (hu : Uncut 13 10 s.chunks) (n : Nat) (hn : 0 < n) :
    ((unread s).length < n ∧ ∃ out s', readExactly n s = .eof out s' ∧ out.flatten = unread s) ∨
    (n ≤ (unread s).length ∧ ∃ out s', readExactly n s = .ok out s' ∧ out.flatten = (unread s).take n ∧
      unread s' = (unread s).drop n ∧ WF s' ∧ Uncut 13 10 s'.chunks) := by
  by_cases h : (unread s).length < n
  · obtain ⟨out, s', e1, e2, _⟩ := readExactly_eof s hs n h
    exact .inl ⟨h, out, s', e1, e2⟩
  · obtain ⟨out, s', e1, e2, e3, e4, _⟩ := readExactly_ok s hs n hn (by omega)
    exact .inr ⟨by omega, out, s', e1, e2, e3, e4, hu.suffix (readExactly_suffix e1)⟩

theorem decode_none {f : List Byte → Option Int} {s : List Byte} (h : splitLine s = none) : decode f s = ([], .eof) := by
  rw [decode]
  split
  · rfl
  · rename_i e; rw [h] at e; contradiction

theorem decode_some {f : List Byte → Option Int} {s line post : List Byte} (h : splitLine s = some (line, post)) :
    decode f s =
    match f line with
    | none => ([], .payloadError)
    | some size =>
      let n := size.toNat
      if size < 0 then ([], .negative)
      else if size = 0 then
        if post.length < 2 then ([], .eof)
        else if post.take 2 = [13, 10] then ([], .done (post.drop 2))
        else ([], .payloadError)
      else if post.length < n then (post, .eof)
      else if (post.drop n).length < 2 then (post.take n, .eof)
      else if (post.drop n).take 2 = [13, 10] then
        let r := decode f (post.drop (n + 2))
        (post.take n ++ r.1, r.2)
      else (post.take n, .payloadError) := by
  conv => lhs; rw [decode]
  split
  · rename_i e; rw [h] at e; contradiction
  · rename_i e
    rw [h] at e; simp at e
    obtain ⟨rfl, rfl⟩ := e
    rfl

theorem readChunked_refines (s : RState Byte) (hs : WF s) (hu : Uncut 13 10 s.chunks) :
    outcome (readChunked s) = ((decode lineSize (unread s)).1, some (decode lineSize (unread s)).2) := by
  generalize hk : (unread s).length = k
  induction k using Nat.strongRecOn generalizing s with
  | _ k ih =>
    rw [readChunked]
    match hl : splitLine (unread s) with
    | none =>
      obtain ⟨o, s', h1⟩ := readUntil_line_eof hs hu hl
      rw [decode_none hl, h1]; rfl
    | some (line, post) =>
      obtain ⟨out', s1', h1, h2, h3, h4, h5⟩ := readUntil_line_ok hs hu hl
      rw [decode_some hl, h1]
      simp only [h2]
      have hls : parseInt16 (line.takeWhile (· ≠ 59)) = lineSize line := rfl
      rw [hls]
      have hlen := splitLine_length _ _ _ hl
      match lineSize line with
      | none => rfl
      | some size =>
        by_cases hneg : size < 0
        · have h0 : ¬ size = 0 := by omega
          simp [h0, hneg, outcome]
        by_cases hz : size = 0
        · simp only [hz, if_true]
          rcases readExactly_any h4 h5 2 (by omega) with ⟨hl2, o, s2, e1, _⟩ | ⟨hl2, o, s2, e1, e2, e3, _⟩
          · rw [h3] at hl2; simp [e1, hl2, outcome]
          · rw [h3] at hl2 e2 e3
            have : ¬ post.length < 2 := by omega
            simp only [e1, e2, this, if_false, crlf]
            by_cases hc : post.take 2 = [13, 10]
            · simp [hc, outcome, e3]
            · simp [hc, outcome]
        obtain ⟨n, rfl⟩ : ∃ n : Nat, size = (n : Int) + 1 := ⟨size.toNat - 1, by omega⟩
        have ht : ((n : Int) + 1).toNat = n + 1 := rfl
        simp only [hneg, hz, if_false, ht]
        rcases readExactly_any h4 h5 (n + 1) (by omega) with ⟨hl2, o, s2, e1, e2⟩ | ⟨hl2, o, s2, e1, e2, e3, e4, e5⟩
        · rw [h3] at hl2 e2; simp [e1, hl2, outcome, e2]
        · rw [h3] at hl2 e2 e3
          have hn : ¬ post.length < n + 1 := by omega
          simp only [e1, hn, if_false]
          rcases readExactly_any e4 e5 2 (by omega) with ⟨hl3, o3, s3, f1, _⟩ | ⟨hl3, o3, s3, f1, f2, f3, f4, f5⟩
          · rw [e3] at hl3; simp only [f1, hl3, if_true, outcome, e2]
          · rw [e3] at hl3 f2 f3
            have hn3 : ¬ (post.drop (n + 1)).length < 2 := by omega
            simp only [f1, hn3, if_false, f2, crlf]
            by_cases hc : (post.drop (n + 1)).take 2 = [13, 10]
            · rw [List.drop_drop] at f3
              simp only [hc, if_true]
              have hdec : (unread s3).length < (unread s).length := by rw [f3]; simp; omega
              rw [if_pos hdec]
              have := ih _ (by omega) s3 f4 f5 rfl
              rw [outcome_yield _ _ this, e2, f3]
            · simp [hc, outcome, e2]

end Verif.Chunked
