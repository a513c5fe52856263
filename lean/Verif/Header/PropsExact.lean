import Verif.Header.Props

/-!
# C78: a header is read only if it is written as the names which are read
-/
namespace Verif.Header

theorem takeWhile_mem {p : Char → Bool} {s : Text} : ∀ c ∈ s.takeWhile p, p c = true := by
  induction s with
  | nil => simp
  | cons a s ih =>
    rw [List.takeWhile_cons]
    split
    · rename_i h; intro c hc; rcases List.mem_cons.mp hc with rfl | hc
      · exact h
      · exact ih c hc
    · simp

theorem names_writes {element : Text → Option (Text × Text)} {isName : Text → Prop}
    (hm : ∀ s t rest, element s = some (t, rest) → isName t ∧ s = t ++ rest) (rounds : Nat) :
    ∀ (s : Text) (result list : List Text), names element rounds s result = some (.ok list) →
      ∃ read, list = result ++ read ∧ WritesNames isName read s := by
  induction rounds with
  | zero => intro s result list h; cases h
  | succ rounds ih =>
    intro s result list h
    have hs := List.takeWhile_append_dropWhile (p := listStart) (l := s)
    have hw : Separators (s.takeWhile listStart) := takeWhile_mem
    simp only [names] at h
    split at h
    · rename_i hd
      cases h
      refine ⟨[], by simp, ?_⟩
      rw [hd, List.append_nil] at hs
      rw [← hs]; exact .nil _ hw
    · rename_i c r hd
      rw [hd] at hs
      split at h
      · cases h
      · rename_i name rest he
        obtain ⟨hn, hc⟩ := hm _ _ _ he
        have hr := List.takeWhile_append_dropWhile (p := space) (l := rest)
        have hv : Spaces (rest.takeWhile space) := takeWhile_mem
        split at h
        · rename_i hd'
          cases h
          refine ⟨[name], rfl, ?_⟩
          rw [hd', List.append_nil] at hr
          rw [← hs, hc, ← hr]
          exact .last _ _ _ hw hn hv
        · rename_i r' hd'
          obtain ⟨read, hl, hr'⟩ := ih _ _ _ h
          refine ⟨name :: read, by simp [hl], ?_⟩
          rw [hd'] at hr
          rw [← hs, hc, ← hr]
          exact .more _ _ _ _ _ hw hn hv hr'
        · cases h

/-- **C78.** A header of connections (or of subprotocols) is read as `list` exactly if it is written as `list`: in some layout, and of
tokens.  Everything else is refused. -/
theorem C78_connections_exact (s : Text) (list : List Text) :
    parseConnections s = some (.ok list) ↔ WritesNames Token list s := by
  constructor
  · intro h
    obtain ⟨read, hl, hr⟩ := names_writes (isName := Token) (fun _ _ _ h => ⟨(token_some h).1, (token_some h).2⟩) _ s [] list h
    simpa [hl] using hr
  · exact C49_connections_layout

theorem protocol_split {s t rest : Text} (h : protocol s = some (t, rest)) : s = t ++ rest := by
  unfold protocol at h
  split at h
  · cases h
  · rename_i name r hn
    split at h
    · cases h; exact (token_some hn).2
    · rename_i version r' hv
      cases h
      rw [(token_some hn).2, (token_some hv).2]; simp
  · rename_i name r _ hn
    cases h
    exact (token_some hn).2

/-- **C78.** The same for the headers of upgrades, whose names may have a version. -/
theorem C78_upgrades_exact (s : Text) (list : List Text) :
    parseUpgrades s = some (.ok list) ↔ WritesNames Protocol list s := by
  constructor
  · intro h
    obtain ⟨read, hl, hr⟩ := names_writes (isName := Protocol) (fun _ _ _ h => ⟨protocol_some h, protocol_split h⟩) _ s [] list h
    simpa [hl] using hr
  · exact C49_upgrades_layout

example : ¬ ∃ list, WritesNames Token list "keep-alive upgrade".toList := by
  rintro ⟨list, h⟩
  have h := (C78_connections_exact _ _).mpr h
  have e : parseConnections "keep-alive upgrade".toList = some (.error ()) := by with_unfolding_all rfl
  rw [e] at h
  cases h

example : WritesNames Token [['U', 'p']] [' ', ',', 'U', 'p', ' '] := (C78_connections_exact _ _).mp (by with_unfolding_all rfl)

end Verif.Header
