import Verif.Connect.Model

/-!
# C238: the first address which works is taken; C239: who is at its other end; C240: nothing else stays open
-/

namespace Verif.Connect

variable {sha256 : Bytes → Bytes}

/-- An address which is given up, and why: nobody listens, or somebody with another certificate. -/
inductive GivenUp (sha256 : Bytes → Bytes) (context : Option Context) (fp : Option Bytes) : Peer → Cause → Prop where
  | os (e : Nat) : GivenUp sha256 context fp (.refuses e) (.os e)
  | mismatch (c : Certificate) (x : Context) (v : Bytes) (hx : context = some x) (hv : fp = some v) (hs : x.verifies = true → c.trusted = true)
      (hn : sha256 c.bytes ≠ v) : GivenUp sha256 context fp (.serves c) .mismatch

/-- A list of addresses which are all given up. -/
inductive AllGivenUp (sha256 : Bytes → Bytes) (context : Option Context) (fp : Option Bytes) : List (HostInfo × Peer) → List Cause → Prop where
  | nil : AllGivenUp sha256 context fp [] []
  | cons {h p c l cs} : GivenUp sha256 context fp p c → AllGivenUp sha256 context fp l cs → AllGivenUp sha256 context fp ((h, p) :: l) (c :: cs)

/-- What ends the search: -/
inductive Ends (sha256 : Bytes → Bytes) (context : Option Context) (fp : Option Bytes) : Peer → Nat → Got → Prop where
  /-- a plain connection, -/
  | plain (c : Certificate) (i : Nat) (hx : context = none) : Ends sha256 context fp (.serves c) i (.protocol i none)
  /-- a secure one, whose certificate has the fingerprint, if there is any, -/
  | secure (c : Certificate) (i : Nat) (x : Context) (hx : context = some x) (hs : x.verifies = true → c.trusted = true)
      (hf : ∀ v, fp = some v → sha256 c.bytes = v) : Ends sha256 context fp (.serves c) i (.protocol i (some c))
  /-- one with a certificate which is not trusted, -/
  | untrusted (c : Certificate) (i : Nat) (x : Context) (hx : context = some x) (hv : x.verifies = true) (ht : c.trusted = false) :
      Ends sha256 context fp (.serves c) i .sslError
  /-- and anything unexpected. -/
  | breaks (e i : Nat) : Ends sha256 context fp (.breaks e) i (.other e)

/-- The connections returned. -/
def Got.kept : Got → List Nat
  | .protocol i _ => [i]
  | _ => []

/-- Of an address. -/
theorem peer_cases (context : Option Context) (fp : Option Bytes) (hfp : context = none → fp = none) (p : Peer) (i : Nat) :
    (∃ c, GivenUp sha256 context fp p c) ∨ ∃ g, Ends sha256 context fp p i g := by
  cases p with
  | refuses e => exact .inl ⟨_, .os e⟩
  | breaks e => exact .inr ⟨_, .breaks e i⟩
  | serves c =>
    rcases context with _ | x
    · exact .inr ⟨_, .plain c i rfl⟩
    · by_cases hs : x.verifies = true → c.trusted = true
      · by_cases hf : ∀ v, fp = some v → sha256 c.bytes = v
        · exact .inr ⟨_, .secure c i x rfl hs hf⟩
        · obtain ⟨v, hv⟩ : ∃ v, fp = some v := by
            cases fp with
            | none => exact absurd (by simp) hf
            | some v => exact ⟨v, rfl⟩
          have hn : sha256 c.bytes ≠ v := by
            intro e
            refine hf ?_
            intro v' hv'
            rw [hv] at hv'
            cases hv'
            exact e
          exact .inl ⟨_, .mismatch c x v rfl hv hs hn⟩
      · cases hv : x.verifies <;> cases ht : c.trusted <;> simp_all
        exact .inr ⟨_, .untrusted c i x rfl hv ht⟩

theorem loop_given_up {context : Option Context} {fp : Option Bytes} {stop : Option Raise} {i : Nat} {cs : List Cause} {h : HostInfo} {p : Peer}
    {l : List (HostInfo × Peer)} {c : Cause} (hg : GivenUp sha256 context fp p c) :
    (loop sha256 context fp stop i cs ((h, p) :: l)).got = (loop sha256 context fp stop (i + 1) (cs ++ [c]) l).got ∧
    (loop sha256 context fp stop i cs ((h, p) :: l)).tried = h :: (loop sha256 context fp stop (i + 1) (cs ++ [c]) l).tried ∧
    ∃ o, (loop sha256 context fp stop i cs ((h, p) :: l)).opened = o ++ (loop sha256 context fp stop (i + 1) (cs ++ [c]) l).opened ∧
      (loop sha256 context fp stop i cs ((h, p) :: l)).closed = o ++ (loop sha256 context fp stop (i + 1) (cs ++ [c]) l).closed ∧
      (o = [] ∨ o = [i]) := by
  cases hg with
  | os e => exact ⟨rfl, rfl, [], rfl, rfl, .inl rfl⟩
  | mismatch ce x v hx hv hs hn =>
    subst hx hv
    have h1 : attempt (some x) (.serves ce) = .connected (some ce) := by
      simp only [attempt]
      cases hv : x.verifies <;> cases ht : ce.trusted <;> simp_all
    have h2 : matches? sha256 v (some ce) = false := by
      simp [matches?, hn]
    simp only [loop, h1, h2]
    exact ⟨rfl, rfl, [i], rfl, rfl, .inr rfl⟩

theorem loop_ends {context : Option Context} {fp : Option Bytes} (hfp : context = none → fp = none) {stop : Option Raise} {i : Nat}
    {cs : List Cause} {h : HostInfo} {p : Peer} {l : List (HostInfo × Peer)} {g : Got} (hg : Ends sha256 context fp p i g) :
    (loop sha256 context fp stop i cs ((h, p) :: l)) =
      { tried := [h], opened := g.kept, closed := [], got := g } := by
  cases hg with
  | plain c i hx =>
    have := hfp hx
    subst hx this
    rfl
  | secure c i x hx hs hf =>
    subst hx
    have h1 : attempt (some x) (.serves c) = .connected (some c) := by
      simp only [attempt]
      cases hv : x.verifies <;> cases ht : c.trusted <;> simp_all
    rcases fp with _ | v
    · simp only [loop, h1]
      rfl
    · simp only [loop, h1, matches?, hf v rfl]
      simp [Got.kept]
  | untrusted c i x hx hv ht =>
    subst hx
    simp [loop, attempt, hv, ht, Got.kept]
  | breaks e i => rfl

/-- What all of the searches are. -/
theorem loop_cases (context : Option Context) (fp : Option Bytes) (hfp : context = none → fp = none) (stop : Option Raise) (l : List (HostInfo × Peer)) :
    ∀ (i : Nat) (cs : List Cause),
    (∃ a h p b cs' g, l = a ++ (h, p) :: b ∧ AllGivenUp sha256 context fp a cs' ∧ Ends sha256 context fp p (i + a.length) g ∧
      (loop sha256 context fp stop i cs l).got = g ∧ (loop sha256 context fp stop i cs l).tried = (a ++ [(h, p)]).map Prod.fst ∧
      (loop sha256 context fp stop i cs l).opened = (loop sha256 context fp stop i cs l).closed ++ g.kept ∧
      ∀ x ∈ (loop sha256 context fp stop i cs l).closed, i ≤ x ∧ x < i + a.length) ∨
    (∃ cs', AllGivenUp sha256 context fp l cs' ∧
      (loop sha256 context fp stop i cs l).got = (match stop with | some r => .raised r | none => .unreachable (cs ++ cs')) ∧
      (loop sha256 context fp stop i cs l).tried = l.map Prod.fst ∧
      (loop sha256 context fp stop i cs l).opened = (loop sha256 context fp stop i cs l).closed) := by
  induction l with
  | nil =>
    intro i cs
    refine .inr ⟨[], .nil, ?_, rfl, rfl⟩
    cases stop <;> simp [loop]
  | cons x l ih =>
    intro i cs
    obtain ⟨h, p⟩ := x
    rcases peer_cases context fp hfp p i (sha256 := sha256) with ⟨c, hg⟩ | ⟨g, hg⟩
    · obtain ⟨e1, e2, o, e3, e4, ho⟩ := loop_given_up (stop := stop) (i := i) (cs := cs) (h := h) (l := l) hg
      rcases ih (i + 1) (cs ++ [c]) with ⟨a, h', p', b, cs', g, rfl, ha, hg', r1, r2, r3, r4⟩ | ⟨cs', ha, r1, r2, r3⟩
      · refine .inl ⟨(h, p) :: a, h', p', b, c :: cs', g, rfl, .cons hg ha, ?_, by rw [e1, r1], by rw [e2, r2]; rfl, ?_, ?_⟩
        · have : i + 1 + a.length = i + ((h, p) :: a).length := by simp; omega
          rw [← this]
          exact hg'
        · rw [e3, e4, r3, List.append_assoc]
        · intro x hx
          rw [e4] at hx
          rcases List.mem_append.1 hx with hx | hx
          · rcases ho with rfl | rfl
            · cases hx
            · have := List.mem_singleton.1 hx
              simp
              omega
          · have := r4 x hx
            simp
            omega
      · refine .inr ⟨c :: cs', .cons hg ha, ?_, by rw [e2, r2]; rfl, by rw [e3, e4, r3]⟩
        rw [e1, r1]
        cases stop <;> simp
    · refine .inl ⟨[], h, p, l, [], g, rfl, .nil, hg, ?_⟩
      rw [loop_ends hfp hg]
      exact ⟨rfl, rfl, by simp, by simp⟩

/-- The settings of a request never ask for a fingerprint of a plain connection. -/
theorem fp_none (c : Connector) (r : Request) (h : sslContext c r = none) : sslFingerprint c r = none := by
  unfold sslContext at h
  unfold sslFingerprint
  cases hr : r.secure
  · rfl
  · rw [hr] at h
    cases hc : r.context <;> cases hd : c.context <;> simp [hc, hd] at h

/-- C238: the addresses are tried one after the other, those which are given up are followed by the next. It ends at the first which is not, and
its connection is the one returned; if all of them are given up then their errors are told, all and in order. -/
theorem C238_first (c : Connector) (r : Request) (l : List (HostInfo × Peer)) :
    (∃ a h p b cs g, l = a ++ (h, p) :: b ∧ AllGivenUp sha256 (sslContext c r) (sslFingerprint c r) a cs ∧
      Ends sha256 (sslContext c r) (sslFingerprint c r) p a.length g ∧ (direct sha256 c r l none).got = g ∧
      (direct sha256 c r l none).tried = (a ++ [(h, p)]).map Prod.fst) ∨
    (∃ cs, AllGivenUp sha256 (sslContext c r) (sslFingerprint c r) l cs ∧ (direct sha256 c r l none).got = .unreachable cs ∧
      (direct sha256 c r l none).tried = l.map Prod.fst) := by
  rcases loop_cases (sha256 := sha256) _ _ (fp_none c r) none l 0 [] with ⟨a, h, p, b, cs, g, h1, h2, h3, h4, h5, -⟩ | ⟨cs, h1, h2, h3, -⟩
  · exact .inl ⟨a, h, p, b, cs, g, h1, h2, by simpa using h3, h4, h5⟩
  · exact .inr ⟨cs, h1, h2, h3⟩

/-- C238 is violated: if the lookup fails after known addresses were tried, then of them nothing is told, only the lookup's failure. -/
theorem C238_causes_violated (c : Connector) (r : Request) (l : List (HostInfo × Peer)) (stop : Raise) (cs : List Cause)
    (hl : AllGivenUp sha256 (sslContext c r) (sslFingerprint c r) l cs) : (direct sha256 c r l (some stop)).got = .raised stop := by
  suffices H : ∀ i cs0, (loop sha256 (sslContext c r) (sslFingerprint c r) (some stop) i cs0 l).got = .raised stop from H 0 []
  induction hl with
  | nil => intro i cs0; rfl
  | cons hg _ ih => intro i cs0; rw [(loop_given_up hg).1]; exact ih _ _

/-- Nobody at the first address, and a server at the second. -/
example (c : Certificate) : (direct sha256 ⟨none, none⟩ ⟨false, none, none⟩ [(⟨2, 4, ['a'], ['h'], 80, 6⟩, .refuses 111),
    (⟨2, 4, ['b'], ['h'], 80, 6⟩, .serves c)] none).got = .protocol 1 none := rfl

/-! ### Certificates -/

/-- C239: a plain request has no context, a secure one that of the request, else that of the connector. -/
theorem C239_context (c : Connector) (r : Request) :
    (sslContext c r).isSome = r.secure ∧ (r.secure = true → ∀ x, r.context = some x ∨ (r.context = none ∧ c.context = some x) → sslContext c r = some x) := by
  refine ⟨?_, ?_⟩
  · unfold sslContext
    cases r.secure <;> cases r.context <;> cases c.context <;> rfl
  · intro hs x h
    rcases h with h | ⟨h, h'⟩ <;> simp [sslContext, *]

/-- C239, direct connections: the certificate of what is returned has the fingerprint given with the request, or else with the connector. -/
theorem C239_fingerprint_partial (c : Connector) (r : Request) (l : List (HostInfo × Peer)) (stop : Option Raise) {i : Nat} {x : Option Certificate}
    (hs : r.secure = true) {v : Bytes} (hv : r.fingerprint = some v ∨ (r.fingerprint = none ∧ c.fingerprint = some v))
    (hg : (direct sha256 c r l stop).got = .protocol i x) : ∃ ce, x = some ce ∧ sha256 ce.bytes = v := by
  have hf : sslFingerprint c r = some v := by
    rcases hv with h | ⟨h, h'⟩ <;> simp [sslFingerprint, *]
  rcases loop_cases (sha256 := sha256) _ _ (fp_none c r) stop l 0 [] with ⟨a, h, p, b, cs, g, h1, h2, h3, h4, h5, -⟩ | ⟨cs, h1, h2, h3, -⟩
  · have h4' : (direct sha256 c r l stop).got = g := h4
    rw [hg] at h4'
    subst h4'
    cases h3 with
    | plain _ _ hx => rw [fp_none c r hx] at hf; cases hf
    | secure ce _ _ hx hs hff => exact ⟨ce, rfl, hff v hf⟩
  · have h2' : (direct sha256 c r l stop).got = _ := h2
    rw [hg] at h2'
    cases stop <;> cases h2'

/-- C239, with a context which verifies: only of trusted certificates a connection is returned, directly and through proxies. -/
theorem C239_verified_partial (c : Connector) (r : Request) (hs : r.secure = true) {x : Context} (hv : x.verifies = true)
    (hx : r.context = some x ∨ (r.context = none ∧ c.context = some x)) (l : List (HostInfo × Peer)) (stop : Option Raise) (p : Proxy) (closed : Bool)
    (t : Tunnel) (target : Peer) {i : Nat} {ce : Option Certificate}
    (hg : (direct sha256 c r l stop).got = .protocol i ce ∨ (proxied sha256 c r p l stop closed t target).got = .protocol i ce) :
    ∃ y, ce = some y ∧ y.trusted = true := by
  have hc := (C239_context c r).2 hs x hx
  rcases hg with hg | hg
  · rcases loop_cases (sha256 := sha256) _ _ (fp_none c r) stop l 0 [] with ⟨a, h, p, b, cs, g, h1, h2, h3, h4, h5, -⟩ | ⟨cs, h1, h2, h3, -⟩
    · have h4' : (direct sha256 c r l stop).got = g := h4
      rw [hg] at h4'
      subst h4'
      cases h3 with
      | plain _ _ hx => rw [hc] at hx; cases hx
      | secure ce _ y hy ht hff => rw [hc] at hy; cases hy; exact ⟨ce, rfl, ht hv⟩
    · have h2' : (direct sha256 c r l stop).got = _ := h2
      rw [hg] at h2'
      cases stop <;> cases h2'
  · unfold proxied at hg
    generalize hd : direct sha256 c ⟨p.secure, p.context, p.fingerprint⟩ l stop = d at hg
    rcases d with ⟨tr, op, cl, g⟩
    cases g with
    | protocol j y =>
      cases t with
      | fails e => cases hg
      | status n =>
        simp only [hc, hs] at hg
        split at hg
        · cases hg
        · cases target with
          | refuses e => cases hg
          | breaks e => cases hg
          | serves z =>
            simp only [attempt, hv] at hg
            cases hz : z.trusted
            · simp [hz] at hg
            · simp [hz] at hg
              exact ⟨z, hg.2.symm, hz⟩
    | sslError => cases hg
    | other e => cases hg
    | raised e => cases hg
    | unreachable e => cases hg
    | proxyError e => cases hg

/-- C239: only fingerprints of 32 bytes are accepted, those of `sha256`. -/
theorem C239_fingerprint_length (v : Bytes) : fingerprint v = if v.length = 32 then some v else none := by
  unfold fingerprint
  by_cases h : v.length = 32
  · simp [h]
  · simp [h]

/-- C239 is violated: without any settings a secure request is connected to whoever is there, with whatever certificate. -/
theorem C239_unverified_violated (h : HostInfo) (ce : Certificate) (ht : ce.trusted = false) :
    ∃ y, (direct sha256 ⟨none, none⟩ ⟨true, none, none⟩ [(h, .serves ce)] none).got = .protocol 0 (some y) ∧ y.trusted = false :=
  ⟨ce, rfl, ht⟩

/-- C239 is violated: through a proxy the fingerprint given with the request is not compared. -/
theorem C239_proxy_violated (h : HostInfo) (ce cp : Certificate) (v : Bytes) (hn : sha256 ce.bytes ≠ v) :
    ∃ y, (proxied sha256 ⟨none, none⟩ ⟨true, none, some v⟩ ⟨false, none, none⟩ [(h, .serves cp)] none false (.status 200) (.serves ce)).got =
      .protocol 0 (some y) ∧ sha256 y.bytes ≠ v :=
  ⟨ce, rfl, hn⟩

/-- C239 is violated: the fingerprint of a connector, meant for the servers, is asked of a secure proxy which was given without one. -/
theorem C239_proxy_asked_violated (h : HostInfo) (ce cp : Certificate) (hn : sha256 cp.bytes ≠ sha256 ce.bytes) :
    (proxied sha256 ⟨none, some (sha256 ce.bytes)⟩ ⟨true, none, none⟩ ⟨true, none, none⟩ [(h, .serves cp)] none false (.status 200) (.serves ce)).got =
      .unreachable [.mismatch] := by
  simp [proxied, direct, loop, sslContext, sslFingerprint, attempt, unverified, matches?, hn]

/-- C239 is violated: the name asked of a server through a proxy is not the one asked of it directly, if it is written with a dot at its end. -/
theorem C239_name_violated (i : HostInfo) (n : Text) (hi : i.hostName = n ++ ['.']) : directName i ≠ proxyName i.hostName := by
  intro e
  have h1 : (directName i).length ≤ n.length := by
    simp only [directName, hi, List.reverse_append, List.reverse_cons, List.reverse_nil, List.nil_append, List.singleton_append]
    rw [List.dropWhile_cons_of_pos (by simp), List.length_reverse]
    exact Nat.le_trans (List.dropWhile_sublist _).length_le (by simp)
  rw [e] at h1
  simp [proxyName, hi] at h1
  omega

/-! ### Connections -/

/-- C240: directly: of the connections which were made all but the one returned are closed. -/
theorem C240_direct (c : Connector) (r : Request) (l : List (HostInfo × Peer)) (stop : Option Raise) :
    (direct sha256 c r l stop).opened = (direct sha256 c r l stop).closed ++ (direct sha256 c r l stop).got.kept := by
  rcases loop_cases (sha256 := sha256) _ _ (fp_none c r) stop l 0 [] with ⟨a, h, p, b, cs, g, h1, h2, h3, h4, h5, h6, -⟩ | ⟨cs, h1, h2, h3, h4⟩
  · have h4' : (direct sha256 c r l stop).got = g := h4
    rw [h4']
    exact h6
  · have h2' : (direct sha256 c r l stop).got = _ := h2
    rw [h2']
    refine Eq.trans h4 ?_
    cases stop <;> simp [Got.kept] <;> rfl

/-- C240, through proxies, while the connector is not closed. -/
theorem C240_proxied_partial (c : Connector) (r : Request) (p : Proxy) (l : List (HostInfo × Peer)) (stop : Option Raise) (t : Tunnel) (target : Peer) :
    (proxied sha256 c r p l stop false t target).opened.Perm
      ((proxied sha256 c r p l stop false t target).closed ++ (proxied sha256 c r p l stop false t target).got.kept) := by
  unfold proxied
  have h := C240_direct (sha256 := sha256) c ⟨p.secure, p.context, p.fingerprint⟩ l stop
  generalize direct sha256 c ⟨p.secure, p.context, p.fingerprint⟩ l stop = d at h
  rcases d with ⟨tr, op, cl, g⟩
  dsimp only at h
  cases g with
  | protocol j y =>
    have hop : op.Perm (j :: cl) := by
      rw [h]
      exact List.perm_append_comm
    cases t with
    | fails e => simpa [Got.kept] using hop
    | status n =>
      dsimp only
      split
      · simpa [Got.kept] using hop
      · split
        · rw [h]
          exact .refl _
        · cases attempt (sslContext c r) target with
          | connected x => rw [h]; exact .refl _
          | ssl => simpa [Got.kept] using hop
          | os e => simpa [Got.kept] using hop
          | other e => simpa [Got.kept] using hop
  | sslError => dsimp only; rw [h]
  | other e => dsimp only; rw [h]
  | raised e => dsimp only; rw [h]
  | unreachable e => dsimp only; rw [h]
  | proxyError e => dsimp only; rw [h]

/-- C240 is violated: if the connector was closed while the proxy was asked, and asking it fails, then the connection to the proxy stays open. -/
theorem C240_closed_violated (c : Connector) (r : Request) (p : Proxy) (l : List (HostInfo × Peer)) (stop : Option Raise) (e : Nat) (target : Peer) {i : Nat}
    {x : Option Certificate} (hd : (direct sha256 c ⟨p.secure, p.context, p.fingerprint⟩ l stop).got = .protocol i x) :
    (proxied sha256 c r p l stop true (.fails e) target).got = .other e ∧ i ∈ (proxied sha256 c r p l stop true (.fails e) target).opened ∧
      i ∉ (proxied sha256 c r p l stop true (.fails e) target).closed := by
  have h6 := C240_direct (sha256 := sha256) c ⟨p.secure, p.context, p.fingerprint⟩ l stop
  have hcl : i ∉ (direct sha256 c ⟨p.secure, p.context, p.fingerprint⟩ l stop).closed := by
    rcases loop_cases (sha256 := sha256) _ _ (fp_none c ⟨p.secure, p.context, p.fingerprint⟩) stop l 0 [] with
      ⟨a, h, q, b, cs, g, h1, h2, h3, h4, h5, -, h7⟩ | ⟨cs, h1, h2, h3, h4⟩
    · intro hm
      have := h7 i hm
      have h4' : (direct sha256 c ⟨p.secure, p.context, p.fingerprint⟩ l stop).got = g := h4
      rw [hd] at h4'
      subst h4'
      cases h3 <;> omega
    · have h2' : (direct sha256 c ⟨p.secure, p.context, p.fingerprint⟩ l stop).got = _ := h2
      rw [hd] at h2'
      cases stop <;> cases h2'
  unfold proxied
  generalize direct sha256 c ⟨p.secure, p.context, p.fingerprint⟩ l stop = d at *
  rcases d with ⟨tr, op, cl, g⟩
  dsimp only at hd h6 hcl
  subst hd
  refine ⟨rfl, ?_, hcl⟩
  show i ∈ op
  rw [h6]
  simp [Got.kept]

example (ce : Certificate) (h : HostInfo) : (direct sha256 ⟨none, none⟩ ⟨false, none, none⟩ [(h, .serves ce)] none).got = .protocol 0 none := rfl

end Verif.Connect
