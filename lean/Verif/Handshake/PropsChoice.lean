import Verif.Handshake.Props

/-!
# C122 - C125: subprotocols, extensions, refusals, the request
-/
namespace Verif.Handshake
open Verif.Header (Text Answer Parameter parseConnections parseUpgrades parseExtensions buildSubprotocols buildExtensions lowerChar
  WritesNames Token Protocol)

/-! ### C122 -/

/-- The sum of the positions of a name. -/
def cost (offered available : List Text) (p : Text) : Nat := offered.idxOf p + available.idxOf p

theorem pickFrom_least {offered available : List Text} (l : List Text) : ∀ (lowest : Nat) (selected : Option Text),
    (∀ x, selected = some x → cost offered available x = lowest) → ∀ p, pickFrom offered available l lowest selected = some p →
      cost offered available p ≤ lowest ∧ ∀ x ∈ l, cost offered available p ≤ cost offered available x := by
  induction l with
  | nil => intro lowest selected hs p h; exact ⟨Nat.le_of_eq (hs p h), by simp⟩
  | cons s rest ih =>
    intro lowest selected hs p h
    rw [pickFrom] at h
    split at h
    · rename_i hlt
      obtain ⟨h1, h2⟩ := ih _ _ (by intro x hx; cases hx; rfl) p h
      refine ⟨by omega, ?_⟩
      intro x hx
      rcases List.mem_cons.mp hx with rfl | hx
      · exact h1
      · exact h2 x hx
    · rename_i hlt
      obtain ⟨h1, h2⟩ := ih _ _ hs p h
      refine ⟨h1, ?_⟩
      intro x hx
      rcases List.mem_cons.mp hx with rfl | hx
      · unfold cost at h1 ⊢; omega
      · exact h2 x hx

theorem pickFrom_some {offered available : List Text} (l : List Text) : ∀ (lowest : Nat) (selected : Option Text),
    (selected ≠ none ∨ ∃ x ∈ l, cost offered available x < lowest) → pickFrom offered available l lowest selected ≠ none := by
  induction l with
  | nil => intro lowest selected h; rcases h with h | ⟨x, hx, _⟩
           · exact h
           · cases hx
  | cons s rest ih =>
    intro lowest selected h
    rw [pickFrom]
    split
    · exact ih _ _ (.inl (by simp))
    · rename_i hlt
      apply ih
      rcases h with h | ⟨x, hx, hx'⟩
      · exact .inl h
      · rcases List.mem_cons.mp hx with rfl | hx
        · exact absurd hx' hlt
        · exact .inr ⟨x, hx, hx'⟩

/-- **C122.** The subprotocol which is chosen without a selector is one of both sides, and has the least sum of positions in the lists of
the client and of the server.  One is chosen exactly if there is one of both. -/
theorem C122_choice_partial (order : List Text → List Text) (ho : Iterates order) (offered available : List Text) :
    (∀ p, pick order offered available = some p → p ∈ offered ∧ p ∈ available ∧
      ∀ q, q ∈ offered → q ∈ available → offered.idxOf p + available.idxOf p ≤ offered.idxOf q + available.idxOf q) ∧
    (pick order offered available = none ↔ ∀ p, ¬ (p ∈ offered ∧ p ∈ available)) := by
  have mem : ∀ {x}, x ∈ offered → x ∈ available → x ∈ order (offered.filter (· ∈ available)) := by
    intro x h1 h2; exact (ho _ x).mpr (by simp [h1, h2])
  constructor
  · intro p hp
    obtain ⟨h1, h2⟩ := pick_mem ho hp
    refine ⟨h1, h2, ?_⟩
    intro q hq1 hq2
    exact (pickFrom_least _ _ _ (by intro x hx; cases hx) p hp).2 q (mem hq1 hq2)
  · constructor
    · rintro h p ⟨h1, h2⟩
      refine pickFrom_some (offered := offered) (available := available) _ _ none (.inr ⟨p, mem h1 h2, ?_⟩) h
      have := List.idxOf_lt_length_of_mem h1
      have := List.idxOf_lt_length_of_mem h2
      unfold cost; omega
    · intro h
      cases hp : pick order offered available with
      | none => rfl
      | some p => exact absurd (pick_mem ho hp) (h p)

/-- **C122.** If the least sum is of one name only then this name is chosen, in whatever order the set is. -/
theorem C122_determined_partial (order : List Text → List Text) (ho : Iterates order) (offered available : List Text) (p : Text)
    (h1 : p ∈ offered) (h2 : p ∈ available)
    (hu : ∀ q, q ∈ offered → q ∈ available → q ≠ p → offered.idxOf p + available.idxOf p < offered.idxOf q + available.idxOf q) :
    pick order offered available = some p := by
  obtain ⟨hs, hn⟩ := C122_choice_partial order ho offered available
  cases hp : pick order offered available with
  | none => exact absurd ⟨h1, h2⟩ (hn.mp hp p)
  | some q =>
    obtain ⟨hq1, hq2, hmin⟩ := hs q hp
    by_cases e : q = p
    · rw [e]
    · have := hu q hq1 hq2 e
      have := hmin p h1 h2
      omega

example : pick List.reverse [['a'], ['b'], ['c']] [['d'], ['c'], ['b']] = some ['b'] ∨
    pick List.reverse [['a'], ['b'], ['c']] [['d'], ['c'], ['b']] = some ['c'] := by decide

example : pick List.reverse [['a'], ['b'], ['c']] [['b'], ['c']] = some ['b'] := by decide

/-- **C122.** Violated: if both sides prefer other subprotocols then it is the order of the set, which is that of the hashes, which decides. -/
theorem C122_order_violated (a b : Text) (h : a ≠ b) : ∃ order order', Iterates order ∧ Iterates order' ∧
    pick order [a, b] [b, a] = some a ∧ pick order' [a, b] [b, a] = some b := by
  refine ⟨id, List.reverse, fun _ _ => Iff.rfl, fun _ _ => List.mem_reverse, ?_, ?_⟩
  · have h1 : (a == b) = false := by simpa using h
    have h2 : (b == a) = false := by simpa using Ne.symm h
    simp [pick, pickFrom, List.idxOf_cons, h1, h2]
  · have h1 : (a == b) = false := by simpa using h
    have h2 : (b == a) = false := by simpa using Ne.symm h
    simp [pick, pickFrom, List.idxOf_cons, h1, h2]

/-- **C122.** Violated: the list of the server is not its preference, what it prefers to everything else is not chosen though the client
offers it. -/
theorem C122_preference_violated (order : List Text → List Text) (ho : Iterates order) (a b c : Text) (hab : a ≠ b) (hac : a ≠ c)
    (hbc : b ≠ c) : pick order [a, b, c] [c, a] = some a := by
  apply C122_determined_partial order ho _ _ _ (by simp) (by simp)
  intro q h1 h2 hq
  simp only [List.mem_cons, List.not_mem_nil, or_false] at h1 h2
  rcases h2 with rfl | rfl
  · have h1 : (a == q) = false := by simpa using hac
    have h2 : (b == q) = false := by simpa using hbc
    have h3 : (q == a) = false := by simpa using Ne.symm hac
    simp [List.idxOf_cons, h1, h2, h3]
  · exact absurd rfl hq

/-- **C122.** Violated: what a selector selects is not checked; whatever it is, it is sent, and no client which did not offer it accepts the
response. -/
theorem C122_selector_violated (digest : Text → Text) (order : List Text → List Text) (nonce : Bytes) (hn : nonce.length = 16)
    (p : Text) (hp : Token p) (offered : List Text) (ht : ∀ name ∈ offered, Token name) (hno : p ∉ offered) :
    ∃ (s : Server) (sent answer : Headers), (plainClient (some offered)).request nonce = some sent ∧
      s.handshake digest order ⟨"GET".toList, (1, 1), sent⟩ = .accepted answer (some p) [] ∧ answer .protocol = [p] ∧
      (plainClient (some offered)).check digest nonce ⟨(1, 1), 101, answer⟩ = .invalidHandshake := by
  have hc : ∃ sent, (plainClient (some offered)).request nonce = some sent ∧ sent .connection = [tUpgradeCapital] ∧
      sent .upgrade = [tWebsocket] ∧ sent .key = [keyOf nonce] ∧ sent .version = [t13] ∧ sent .protocol = [buildSubprotocols offered] := by
    refine ⟨_, rfl, rfl, rfl, rfl, rfl, rfl⟩
  obtain ⟨sent, hsent, h1, h2, h3, h4, h5⟩ := hc
  let s : Server := { plainServer (some []) with selector := some fun _ _ => some p }
  have hp' : s.subprotocolOf order sent = some (some p) := by
    simp [Server.subprotocolOf, s, plainServer, h5, collect, Header.C49_subprotocols offered ht]
  have hk : checkKey sent = some (keyOf nonce) := by
    unfold checkKey; rw [h3, h4]; simp [keyOf_valid nonce hn]
  have ha := accepted_of (s := s) (order := order) (r := ⟨"GET".toList, (1, 1), sent⟩) digest rfl rfl (basic_connection h1 h2).1 hk rfl hp'
  refine ⟨s, sent, _, hsent, ha, rfl, ?_⟩
  have a1 : (s.respond digest (keyOf nonce) (some p)) .connection = [tUpgradeCapital] := rfl
  have a2 : (s.respond digest (keyOf nonce) (some p)) .upgrade = [tWebsocket] := rfl
  have a3 : (s.respond digest (keyOf nonce) (some p)) .accept = [digest (keyOf nonce ++ guid)] := rfl
  have a4 : (plainClient (some offered)).subprotocolOf (s.respond digest (keyOf nonce) (some p)) = .inl .invalidHandshake := by
    have e : s.respond digest (keyOf nonce) (some p) .protocol = [p] := rfl
    have : collect parseConnections [p] = some [p] := by
      have := Header.C49_subprotocols [p] (by simpa using hp)
      simp [buildSubprotocols, Header.join] at this
      simp [collect, this]
    simp [Client.subprotocolOf, e, this, plainClient, hno]
  have a5 : (plainClient (some offered)).extensionsOf (s.respond digest (keyOf nonce) (some p)) = .inr [] := rfl
  simp [Client.check, (basic_connection a1 a2).2, a3, a4, a5]

/-! ### C123 -/

/-- `e` is an extension which fits what is written: it has the name, and takes the parameters. -/
def Fits (available : List Extension) (accepted : List Text) (written : Text × List Parameter) : Prop :=
  ∃ e ∈ available, e.name = written.1 ∧ e.valid written.2 accepted = true

theorem matchExtensions_spec (available : List Extension) (l : List (Text × List Parameter)) : ∀ accepted result,
    matchExtensions available l accepted = some result → result = accepted ++ l.map Prod.fst ∧
      ∀ before written rest, l = before ++ written :: rest → Fits available (accepted ++ before.map Prod.fst) written := by
  induction l with
  | nil =>
    intro accepted result h
    cases h
    refine ⟨by simp, ?_⟩
    intro before written rest h
    cases before <;> cases h
  | cons w l ih =>
    obtain ⟨name, parameters⟩ := w
    intro accepted result h
    rw [matchExtensions] at h
    split at h
    · rename_i e he
      have hm := List.mem_of_find?_eq_some he
      have hf := List.find?_some he
      simp only [Bool.and_eq_true, decide_eq_true_eq] at hf
      obtain ⟨h1, h2⟩ := ih _ _ h
      rw [hf.1] at h1 h2
      refine ⟨by rw [h1]; simp, ?_⟩
      intro before written rest hl
      cases before with
      | nil => cases hl; exact ⟨e, hm, hf.1, by simpa using hf.2⟩
      | cons b before =>
        cases hl
        have := h2 before written rest rfl
        simpa using this
    · cases h

theorem fits_matchExtensions (available : List Extension) (l : List (Text × List Parameter)) : ∀ accepted,
    (∀ before written rest, l = before ++ written :: rest → Fits available (accepted ++ before.map Prod.fst) written) →
    ∃ result, matchExtensions available l accepted = some result := by
  induction l with
  | nil => intro accepted _; exact ⟨_, rfl⟩
  | cons w l ih =>
    obtain ⟨name, parameters⟩ := w
    intro accepted h
    rw [matchExtensions]
    split
    · rename_i e he
      have hf := List.find?_some he
      simp only [Bool.and_eq_true, decide_eq_true_eq] at hf
      apply ih
      intro before written rest hl
      have := h ((name, parameters) :: before) written rest (by rw [hl]; rfl)
      rw [hf.1]
      simpa using this
    · rename_i hn
      obtain ⟨e, hm, h1, h2⟩ := h [] (name, parameters) l rfl
      have := List.find?_eq_none.mp hn e hm
      simp only [List.map_nil, List.append_nil] at h2
      simp [h1, h2] at this

/-- **C123.** The extensions of a client are those of the response, in the order of the response, and each one fits an extension of the
client; and a response whose extensions fit is not refused for them. -/
theorem C123_client_partial (c : Client) (h : Headers) (ext : List Text) :
    c.extensionsOf h = .inr ext ↔ (h .extensions = [] ∧ ext = []) ∨
      ∃ available written, h .extensions ≠ [] ∧ c.extensions = some available ∧ collect parseExtensions (h .extensions) = some written ∧
        ext = written.map Prod.fst ∧
        ∀ before w rest, written = before ++ w :: rest → Fits available (before.map Prod.fst) w := by
  unfold Client.extensionsOf
  by_cases hn : h .extensions = []
  · simp only [hn, if_true, ne_eq, not_true_eq_false, false_and, exists_false, or_false, true_and, Sum.inr.injEq]
    exact eq_comm
  · rw [if_neg hn]
    cases c.extensions with
    | none => simp [hn]
    | some available =>
      simp only [hn, false_and, false_or, ne_eq, not_false_eq_true, true_and, Option.some.injEq]
      cases hc : collect parseExtensions (h .extensions) with
      | none => simp
      | some written =>
        constructor
        · intro he
          cases hm : matchExtensions available written [] with
          | none => simp only [hm] at he; cases he
          | some result =>
            simp only [hm] at he
            cases he
            obtain ⟨h1, h2⟩ := matchExtensions_spec _ _ _ _ hm
            exact ⟨available, written, rfl, rfl, by simpa using h1, by simpa using h2⟩
        · rintro ⟨_, _, rfl, e, rfl, hf⟩
          cases e
          obtain ⟨result, hm⟩ := fits_matchExtensions available written [] (by simpa using hf)
          have := (matchExtensions_spec _ _ _ _ hm).1
          simp only [hm, this, List.nil_append]

/-- An extension which takes everything. -/
def anyExtension (name : Text) : Extension := ⟨name, [], fun _ _ => true⟩

example : (Client.extensionsOf ⟨plainUrl, none, some [anyExtension ['x']], none, []⟩
    (Headers.empty.add .extensions ['x', ';', 'a', '=', '1'])) = .inr [['x']] := by with_unfolding_all rfl

example : (Client.extensionsOf ⟨plainUrl, none, some [anyExtension ['x']], none, []⟩
    (Headers.empty.add .extensions ['y'])) = .inl .invalidHandshake := by with_unfolding_all rfl

/-- **C123.** Violated: a server which has extensions never accepts one: if a request is accepted then no extension is used, and the
request has offered none. -/
theorem C123_server_violated (digest : Text → Text) (order : List Text → List Text) (s : Server) (r : Request) (answer : Headers)
    (sub : Option Text) (ext : List Text) (h : s.handshake digest order r = .accepted answer sub ext) :
    ext = [] ∧ (s.extensions = none ∨ collect parseExtensions (r.headers .extensions) = some []) := by
  obtain ⟨_, _, _, key, _, hx, _, _⟩ := accepted_inv h
  unfold Server.extensionsOf at hx
  split at hx
  · rename_i he; cases hx; exact ⟨rfl, .inl he⟩
  · split at hx
    · cases hx
    · rename_i parsed hp
      split at hx
      · cases hx
      · rename_i accepted hm
        split at hx
        · rename_i e
          subst e
          cases hx
          cases hm
          exact ⟨rfl, .inr hp⟩
        · cases hx

/-- An extension which the server has is answered with an internal error, and one it does not have, which has to be ignored, with a bad
request. -/
example (digest : Text → Text) :
    ({ plainServer none with extensions := some [anyExtension ['x']] }).handshake digest id
      ⟨"GET".toList, (1, 1), (requestHeaders "websocket".toList ["a".toList]).add .extensions ['x']⟩ = .refused 500 ∧
    ({ plainServer none with extensions := some [anyExtension ['x']] }).handshake digest id
      ⟨"GET".toList, (1, 1), (requestHeaders "websocket".toList ["a".toList]).add .extensions ['y']⟩ = .refused 400 := by
  constructor <;> with_unfolding_all rfl

/-! ### C124 -/

/-- **C124.** If the headers of a request are lists then a request which does not ask for an upgrade, or asks for an upgrade to something
else, is answered with `426`, one with a wrong key or version with `400`, and every other one is accepted; for a server without
extensions. -/
theorem C124_status_partial (digest : Text → Text) (order : List Text → List Text) (s : Server) (r : Request)
    (hs : s.serving = true) (he : s.early = none) (hx : s.extensions = none) (hc : ∃ names, Lists Token names (r.headers .connection))
    (v : Text) (names : List Text) (hu : Lists Protocol (v :: names) (r.headers .upgrade))
    (hp : ∃ names, Lists Token names (r.headers .protocol)) :
    (¬ AsksUpgrade r.headers → s.handshake digest order r = .refused 426) ∧
    (names ≠ [] → ¬ Is "websocket" v → s.handshake digest order r = .refused 426) ∧
    (AsksUpgrade r.headers → (names = [] ∨ Is "websocket" v) →
      ¬ (∃ key, r.headers .key = [key] ∧ KeyText key ∧ r.headers .version = ["13".toList]) → s.handshake digest order r = .refused 400) ∧
    (AsksUpgrade r.headers → (names = [] ∨ Is "websocket" v) →
      (∃ key, r.headers .key = [key] ∧ KeyText key ∧ r.headers .version = ["13".toList]) →
        ∃ answer sub, s.handshake digest order r = .accepted answer sub []) := by
  obtain ⟨connections, hc⟩ := hc
  have hcc := (collect_connections _ _).mpr hc
  have huu := (collect_upgrades _ _).mpr hu
  have asks : upgrades connections = true ↔ AsksUpgrade r.headers := by
    rw [upgrades_iff]
    constructor
    · intro h; exact ⟨connections, hc, h⟩
    · rintro ⟨names, hl, h⟩
      rw [(collect_connections _ _).mpr hl] at hcc
      cases hcc; exact h
  have pass : (AsksUpgrade r.headers ∧ (names = [] ∨ Is "websocket" v)) → checkConnection r.headers = none := by
    rintro ⟨h1, h2⟩
    refine (checkConnection_iff _).mpr ⟨h1, _, hu, ?_⟩
    rcases h2 with rfl | h2
    · exact .inl rfl
    · exact .inr ⟨v, names, rfl, h2⟩
  have fail : (¬ AsksUpgrade r.headers ∨ (names ≠ [] ∧ ¬ Is "websocket" v)) → checkConnection r.headers = some 426 := by
    intro h
    unfold checkConnection
    simp only [hcc, huu]
    by_cases ha : AsksUpgrade r.headers
    · rw [if_pos (asks.mpr ha)]
      rcases h with h | ⟨h1, h2⟩
      · exact absurd ha h
      · have hl : (v :: names).length ≠ 1 := by
          simpa using h1
        have hw : lower v ≠ tWebsocket := fun e => h2 ((is_websocket v).mp e)
        unfold checkUpgrade
        rw [if_pos hl]
        simp only [if_pos hw]
    · rw [if_neg (fun h => ha (asks.mp h))]
  have start : ∀ {status}, checkConnection r.headers = some status → s.handshake digest order r = .refused status := by
    intro status h
    simp [Server.handshake, hs, he, h]
  refine ⟨fun h => start (fail (.inl h)), fun h1 h2 => start (fail (.inr ⟨h1, h2⟩)), ?_, ?_⟩
  · intro h1 h2 h3
    have hk : checkKey r.headers = none := by
      cases h : checkKey r.headers with
      | none => rfl
      | some key => exact absurd ⟨key, (checkKey_iff _ _).mp h⟩ h3
    simp [Server.handshake, hs, he, pass ⟨h1, h2⟩, hk]
  · rintro h1 h2 ⟨key, h3⟩
    obtain ⟨names, hl⟩ := hp
    have hp' : ∃ sub, s.subprotocolOf order r.headers = some sub := by
      unfold Server.subprotocolOf
      cases s.subprotocols with
      | none => exact ⟨_, rfl⟩
      | some available =>
        simp only [(collect_connections _ _).mpr hl]
        split
        · exact ⟨_, rfl⟩
        · cases s.selector <;> exact ⟨_, rfl⟩
    obtain ⟨sub, hp'⟩ := hp'
    exact ⟨_, sub, accepted_of digest hs he (pass ⟨h1, h2⟩) ((checkKey_iff _ _).mpr h3) (by simp [Server.extensionsOf, hx]) hp'⟩

/-- **C124.** Violated: a request without `Upgrade`, as of a browser, is answered with an internal error, and so is one whose `Connection` is
not a list of names. -/
theorem C124_missing_violated (digest : Text → Text) (order : List Text → List Text) (s : Server) (r : Request)
    (hs : s.serving = true) (he : s.early = none)
    (h : (AsksUpgrade r.headers ∧ r.headers .upgrade = []) ∨ ¬ ∃ names, Lists Token names (r.headers .connection)) :
    s.handshake digest order r = .refused 500 := by
  have : checkConnection r.headers = some 500 := by
    unfold checkConnection
    rcases h with ⟨⟨names, hl, hv⟩, hu⟩ | h
    · simp only [(collect_connections _ _).mpr hl, (upgrades_iff _).mpr hv, if_true, hu]
      rfl
    · cases hc : collect parseConnections (r.headers .connection) with
      | none => rfl
      | some names => exact absurd ⟨names, (collect_connections _ _).mp hc⟩ h
  simp [Server.handshake, hs, he, this]

example (digest : Text → Text) : (plainServer none).handshake digest id
    ⟨"GET".toList, (1, 1), fun f => if f = .upgrade then [] else requestHeaders [] ["a".toList] f⟩ = .refused 500 :=
  C124_missing_violated digest id _ _ rfl rfl (.inl ⟨⟨["keep-alive".toList, "Upgrade".toList],
    (collect_connections _ _).mp (by with_unfolding_all rfl), "Upgrade".toList, by simp, by with_unfolding_all rfl⟩, rfl⟩)

/-- **C124.** Violated: a server which shuts down answers nothing, the connection is dropped; the response `503` is never sent. -/
theorem C124_shutdown_violated (digest : Text → Text) (order : List Text → List Text) (s : Server) (r : Request)
    (hs : s.serving = false) : s.handshake digest order r = .dropped := by
  simp [Server.handshake, hs, shutdownAbort, abortReply]

/-- **C124.** Violated: whatever a `request_processor` gives, its response is not sent; at best the head of it is, and nothing else. -/
theorem C124_abort_violated (digest : Text → Text) (order : List Text → List Text) (s : Server) (r : Request) (a : Abort)
    (hs : s.serving = true) (he : s.early = some a) :
    s.handshake digest order r = .dropped ∨ s.handshake digest order r = .silent ∨ ∃ code, s.handshake digest order r = .head code := by
  have : s.handshake digest order r = abortReply a := by simp [Server.handshake, hs, he]
  rw [this]
  unfold abortReply
  split
  · split
    · split
      · exact .inr (.inr ⟨_, rfl⟩)
      · exact .inr (.inl rfl)
    · exact .inl rfl
  · exact .inl rfl

example (digest : Text → Text) (r : Request) :
    ({ plainServer none with early := some ⟨.bytes [78, 79], .status 401⟩ }).handshake digest id r = .dropped := rfl

/-- **C124.** There are no other refusals: of a server which serves, and with no `request_processor`, an error response is `400`, `426` or
`500`, and the connection is never left without a response. -/
theorem C124_answers_partial (digest : Text → Text) (order : List Text → List Text) (s : Server) (r : Request)
    (hs : s.serving = true) (he : s.early = none) : (∃ answer sub ext, s.handshake digest order r = .accepted answer sub ext) ∨
      ∃ status, s.handshake digest order r = .refused status ∧ status ∈ [400, 426, 500] := by
  have hconn : ∀ {status}, checkConnection r.headers = some status → status ∈ [400, 426, 500] := by
    intro status h
    unfold checkConnection at h
    split at h
    · cases h; simp
    · split at h
      · split at h
        · cases h; simp
        · split at h <;> cases h <;> simp
      · cases h; simp
  have hext : ∀ {status}, s.extensionsOf r.headers = .inl status → status ∈ [400, 426, 500] := by
    intro status h
    unfold Server.extensionsOf at h
    split at h
    · cases h
    · split at h
      · cases h; simp
      · split at h
        · cases h; simp
        · split at h <;> cases h; simp
  unfold Server.handshake
  simp only [hs, he, Bool.not_true, Bool.false_eq_true, if_false, origin_never]
  split
  · rename_i status h; exact .inr ⟨status, rfl, hconn h⟩
  · split
    · exact .inr ⟨400, rfl, by simp⟩
    · split
      · rename_i status h; exact .inr ⟨status, rfl, hext h⟩
      · split
        · exact .inr ⟨500, rfl, by simp⟩
        · exact .inl ⟨_, _, _, rfl⟩

/-! ### C125 -/

/-- **C125.** Without credentials in the url, the request of a client has each of its headers once: what RFC 6455 requires, the host with its
port unless it is the one of the scheme, and the origin, the extensions and the subprotocols if there are some.  This is so if the additional
headers have none of these names. -/
theorem C125_request_partial (c : Client) (nonce : Bytes) (hn : nonce.length = 16) (huser : c.url.user = none)
    (hpassword : c.url.password = none) (he : ∀ e ∈ c.extra, ∃ name, e.1 = .other name) :
    ∃ sent, c.request nonce = some sent ∧ sent .upgrade = ["websocket".toList] ∧ sent .connection = ["Upgrade".toList] ∧
      sent .version = ["13".toList] ∧ (∃ key, sent .key = [key] ∧ KeyText key) ∧
      sent .host = [if c.url.port = none ∨ c.url.port = some (if c.url.ssl then 443 else 80) then c.url.host
        else c.url.host ++ ':' :: Nat.toDigits 10 (c.url.port.getD 0)] ∧
      sent .origin = c.origin.toList ∧ sent .authorization = [] ∧
      sent .protocol = (c.subprotocols.map buildSubprotocols).toList ∧
      sent .extensions = (c.extensions.map fun l => buildExtensions (l.map fun e : Extension => (e.name, e.requestParameters))).toList := by
  have apart : ∀ {f : Field}, (∀ name, f ≠ .other name) → ∀ h : Headers, h.addAll c.extra f = h f := by
    intro f hf h
    refine addAll_other _ (fun e hm hef => ?_) h
    obtain ⟨name, hname⟩ := he e hm
    exact hf name (hef ▸ hname)
  have hhost : c.url.hostHeader = if c.url.port = none ∨ c.url.port = some (if c.url.ssl then 443 else 80) then c.url.host
        else c.url.host ++ ':' :: Nat.toDigits 10 (c.url.port.getD 0) := by
    unfold Url.hostHeader Url.portOrDefault
    cases c.url.port with
    | none => simp
    | some port => simp
  unfold Client.request
  rw [if_neg (by simp [huser, hpassword]), ← hhost]
  refine ⟨_, rfl, ?_, ?_, ?_, ⟨keyOf nonce, ?_, (key_iff _).mp (keyOf_valid nonce hn)⟩, ?_, ?_, ?_, ?_, ?_⟩
  all_goals
    rw [apart (by intro name h; cases h)]
    cases c.origin <;> cases c.extensions <;> cases c.subprotocols <;> simp [Headers.add, Headers.empty] <;> rfl

example : ∃ sent, (Client.request ⟨⟨"a.b".toList, "a.b".toList, some 8080, true, none, none⟩, some "https://c".toList, none, none,
    [(.other "x".toList, "y".toList)]⟩ (List.replicate 16 0)) = some sent ∧ sent .host = ["a.b:8080".toList] ∧
    sent .origin = ["https://c".toList] ∧ sent (.other "x".toList) = ["y".toList] :=
  ⟨_, rfl, by with_unfolding_all rfl, rfl, by decide⟩

/-- **C125.** Violated: a url with credentials has no request at all. -/
theorem C125_credentials_violated (c : Client) (nonce : Bytes) (h : c.url.user ≠ none ∨ c.url.password ≠ none) :
    c.request nonce = none := by
  unfold Client.request
  rw [if_pos h]

/-- **C125.** Violated: a host among the additional headers does not replace the one of the url, the request has two hosts. -/
theorem C125_host_violated (nonce : Bytes) (host : Text) (h : host ≠ plainUrl.host) : ∃ sent,
    ({ plainClient none with extra := [(.host, host)] }).request nonce = some sent ∧ sent .host = [plainUrl.host, host] := by
  refine ⟨_, rfl, ?_⟩
  have e : plainUrl.hostHeader = plainUrl.host := rfl
  simp [Headers.addAll, Headers.add, Headers.empty, plainClient, e, h]

/-- **C125.** Violated: the host is the one that is shown, not the one of the text of the url; an international one is not in ASCII. -/
theorem C125_encoded_violated (nonce : Bytes) (host raw : Text) (h : host ≠ raw) : ∃ sent,
    (Client.request ⟨⟨host, raw, none, true, none, none⟩, none, none, none, []⟩ nonce) = some sent ∧ sent .host = [host] ∧
      raw ∉ sent .host := by
  refine ⟨_, rfl, rfl, ?_⟩
  show raw ∉ [host]
  simpa using Ne.symm h

end Verif.Handshake
