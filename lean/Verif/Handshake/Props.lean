import Verif.Handshake.Lemmas

/-!
# C118 - C121: both ends agree, requests and responses which are accepted, origins
-/
namespace Verif.Handshake
open Verif.Header (Text Answer Parameter parseConnections parseUpgrades parseExtensions buildSubprotocols buildExtensions lowerChar
  WritesNames Token Protocol)

/-! ### The server -/

theorem accepted_inv {digest : Text → Text} {order : List Text → List Text} {s : Server} {r : Request} {h : Headers} {sub : Option Text}
    {ext : List Text} (ha : s.handshake digest order r = .accepted h sub ext) : s.serving = true ∧ s.early = none ∧
      checkConnection r.headers = none ∧ ∃ key, checkKey r.headers = some key ∧ s.extensionsOf r.headers = .inr ext ∧
      s.subprotocolOf order r.headers = some sub ∧ h = s.respond digest key sub := by
  have noAbort : ∀ a, abortReply a ≠ .accepted h sub ext := by
    intro a; unfold abortReply
    split
    · split
      · split <;> (intro e; cases e)
      · intro e; cases e
    · intro e; cases e
  unfold Server.handshake at ha
  split at ha
  · exact absurd ha (noAbort _)
  · rename_i hs
    split at ha
    · exact absurd ha (noAbort _)
    · rename_i he
      split at ha
      · cases ha
      · rename_i hc
        split at ha
        · cases ha
        · rename_i key hk
          split at ha
          · cases ha
          · split at ha
            · cases ha
            · rename_i ext' hx
              split at ha
              · cases ha
              · rename_i sub' hp
                cases ha
                exact ⟨by simpa using hs, he, hc, key, hk, hx, hp, rfl⟩

theorem accepted_of (digest : Text → Text) {order : List Text → List Text} {s : Server} {r : Request} {key : Text} {sub : Option Text}
    {ext : List Text} (hs : s.serving = true) (he : s.early = none) (hc : checkConnection r.headers = none)
    (hk : checkKey r.headers = some key) (hx : s.extensionsOf r.headers = .inr ext) (hp : s.subprotocolOf order r.headers = some sub) :
    s.handshake digest order r = .accepted (s.respond digest key sub) sub ext := by
  simp [Server.handshake, hs, he, hc, hk, hx, hp, origin_never]

theorem opened_inv {digest : Text → Text} {c : Client} {nonce : Bytes} {r : Response} {sub : Option Text} {ext : List Text}
    (h : c.check digest nonce r = .opened sub ext) : r.version = (1, 1) ∧ r.status = 101 ∧ checkResponseConnection r.headers = none ∧
      r.headers .accept = [digest (keyOf nonce ++ guid)] ∧ c.extensionsOf r.headers = .inr ext ∧
      c.subprotocolOf r.headers = .inr sub := by
  have noConnection : ∀ {v}, checkResponseConnection r.headers = some v → v ≠ .opened sub ext := by
    intro v hv
    unfold checkResponseConnection at hv
    split at hv
    · cases hv; simp
    · split at hv
      · split at hv
        · cases hv; simp
        · split at hv <;> cases hv <;> simp
      · cases hv; simp
  have noExtensions : ∀ {v}, c.extensionsOf r.headers = .inl v → v ≠ .opened sub ext := by
    intro v hv
    unfold Client.extensionsOf at hv
    split at hv
    · cases hv
    · split at hv
      · cases hv; simp
      · split at hv
        · cases hv; simp
        · split at hv <;> cases hv; simp
  have noSubprotocol : ∀ {v}, c.subprotocolOf r.headers = .inl v → v ≠ .opened sub ext := by
    intro v hv
    unfold Client.subprotocolOf at hv
    split at hv
    · cases hv
    · split at hv
      · cases hv; simp
      · split at hv
        · cases hv; simp
        · cases hv; simp
        · split at hv <;> cases hv; simp
        · cases hv; simp
  unfold Client.check at h
  split at h
  · cases h
  · rename_i hv
    split at h
    · cases h
    · rename_i hst
      split at h
      · rename_i v hc; exact absurd h (noConnection hc)
      · rename_i hc
        split at h
        · cases h
        · rename_i ha
          split at h
          · rename_i v hx; exact absurd h (noExtensions hx)
          · rename_i ext' hx
            split at h
            · rename_i v hp; exact absurd h (noSubprotocol hp)
            · rename_i sub' hp
              cases h
              exact ⟨by simpa using hv, by simpa using hst, hc, by simpa using ha, hx, hp⟩

theorem responseConnection_iff (h : Headers) :
    checkResponseConnection h = none ↔ AsksUpgrade h ∧ ∃ names, Lists Protocol names (h .upgrade) ∧ PassesUpgrade names := by
  rw [← checkConnection_iff]
  unfold checkResponseConnection checkConnection
  split
  · simp
  · split
    · split
      · simp
      · split <;> simp
    · simp

/-! ### C118 -/

/-- The headers of the handshake. -/
def handshakeFields : List Field := [.connection, .upgrade, .key, .accept, .version, .extensions, .protocol]

/-- The two agree about the headers of the handshake. -/
def Same (h h' : Headers) : Prop := ∀ f ∈ handshakeFields, h f = h' f

/-- Additional headers leave the ones of the handshake alone. -/
def Apart (extra : List (Field × Text)) : Prop := ∀ e ∈ extra, e.1 ∉ handshakeFields

/-- The order of a `set` is some order of its elements. -/
def Iterates (order : List Text → List Text) : Prop := ∀ l x, x ∈ order l ↔ x ∈ l

theorem pickFrom_mem {offered available : List Text} {P : Text → Prop} (l : List Text) : ∀ (lowest : Nat) (selected : Option Text),
    (∀ x, selected = some x → P x) → (∀ x ∈ l, P x) → ∀ p, pickFrom offered available l lowest selected = some p → P p := by
  induction l with
  | nil => intro lowest selected hs _ p h; exact hs p h
  | cons s rest ih =>
    intro lowest selected hs hl p h
    rw [pickFrom] at h
    split at h
    · exact ih _ _ (by intro x hx; cases hx; exact hl s (by simp)) (fun x hx => hl x (by simp [hx])) p h
    · exact ih _ _ hs (fun x hx => hl x (by simp [hx])) p h

theorem pick_mem {order : List Text → List Text} (ho : Iterates order) {offered available : List Text} {p : Text}
    (h : pick order offered available = some p) : p ∈ offered ∧ p ∈ available := by
  refine pickFrom_mem (P := fun p => p ∈ offered ∧ p ∈ available) _ _ _ (by intro x hx; cases hx) ?_ p h
  intro x hx
  simpa using (ho _ x).mp hx

theorem basic_connection {h : Headers} (hc : h .connection = ["Upgrade".toList]) (hu : h .upgrade = ["websocket".toList]) :
    checkConnection h = none ∧ checkResponseConnection h = none := by
  have : checkConnection h = none := by
    unfold checkConnection
    rw [hc, hu]
    have e1 : collect parseConnections ["Upgrade".toList] = some ["Upgrade".toList] := by with_unfolding_all rfl
    have e2 : collect parseUpgrades ["websocket".toList] = some ["websocket".toList] := by with_unfolding_all rfl
    simp only [e1, e2]
    have e3 : upgrades ["Upgrade".toList] = true := by with_unfolding_all rfl
    rw [if_pos e3]
    with_unfolding_all rfl
  exact ⟨this, (responseConnection_iff h).mpr ((checkConnection_iff h).mp this)⟩

/-- **C118.** A client and a server of the library agree: the request of the client is accepted by the server, the response to it is
accepted by the client, and both have the same subprotocol.  This is so if the additional headers leave those of the handshake alone, the
url has no credentials, the names of the subprotocols are tokens and a selector selects from what the client offered; and if one of the
two supports no extensions. -/
theorem C118_agree (digest : Text → Text) (order : List Text → List Text) (ho : Iterates order) (c : Client) (s : Server) (nonce : Bytes)
    (hn : nonce.length = 16) (huser : c.url.user = none) (hpassword : c.url.password = none) (hce : Apart c.extra) (hse : Apart s.extra)
    (hs : s.serving = true) (he : s.early = none) (hx : c.extensions = none ∨ s.extensions = none)
    (hp : ∀ l, c.subprotocols = some l → ∀ name ∈ l, Token name)
    (hsel : ∀ select, s.selector = some select → ∀ l available p, select l available = some p → p ∈ l) :
    ∃ sent, c.request nonce = some sent ∧ ∀ r : Request, Same r.headers sent →
      ∃ answer sub, s.handshake digest order r = .accepted answer sub [] ∧
        ∀ response : Response, response.version = (1, 1) → response.status = 101 → Same response.headers answer →
          c.check digest nonce response = .opened sub [] := by
  have apart : ∀ {extra : List (Field × Text)} {f : Field}, Apart extra → f ∈ handshakeFields → ∀ h : Headers, h.addAll extra f = h f :=
    fun ha hf h => addAll_other _ (fun e he hef => ha e he (hef ▸ hf)) h
  -- the request
  obtain ⟨sent, hsent, h1, h2, h3, h4, h5, h6⟩ : ∃ sent, c.request nonce = some sent ∧ sent .connection = [tUpgradeCapital] ∧
      sent .upgrade = [tWebsocket] ∧ sent .key = [keyOf nonce] ∧ sent .version = [t13] ∧
      sent .extensions = (match c.extensions with
        | none => []
        | some l => [buildExtensions (l.map fun e : Extension => (e.name, e.requestParameters))]) ∧
      sent .protocol = (match c.subprotocols with
        | none => []
        | some l => [buildSubprotocols l]) := by
    unfold Client.request
    rw [if_neg (by simp [huser, hpassword])]
    refine ⟨_, rfl, ?_, ?_, ?_, ?_, ?_, ?_⟩
    all_goals
      rw [apart hce (by decide)]
      cases c.origin <;> cases c.extensions <;> cases c.subprotocols <;> simp [Headers.add, Headers.empty]
  refine ⟨sent, hsent, ?_⟩
  intro r hr
  have r1 := (hr .connection (by decide)).trans h1
  have r2 := (hr .upgrade (by decide)).trans h2
  have r3 := (hr .key (by decide)).trans h3
  have r4 := (hr .version (by decide)).trans h4
  have r5 := (hr .extensions (by decide)).trans h5
  have r6 := (hr .protocol (by decide)).trans h6
  -- the server
  have hk : checkKey r.headers = some (keyOf nonce) := by
    unfold checkKey
    rw [r3, r4]
    simp [keyOf_valid nonce hn]
  have hext : s.extensionsOf r.headers = .inr [] := by
    unfold Server.extensionsOf
    rcases hx with hx | hx
    · rw [hx] at r5
      cases s.extensions with
      | none => rfl
      | some l => simp [r5, collect, matchExtensions]
    · rw [hx]
  have hsub : ∃ sub, s.subprotocolOf order r.headers = some sub ∧
      ∀ p, sub = some p → ∃ l, c.subprotocols = some l ∧ p ∈ l := by
    unfold Server.subprotocolOf
    cases hav : s.subprotocols with
    | none => exact ⟨none, rfl, by simp⟩
    | some available =>
      cases hcl : c.subprotocols with
      | none =>
        rw [hcl] at r6
        refine ⟨none, by simp [r6], by simp⟩
      | some l =>
        rw [hcl] at r6
        have : collect parseConnections (r.headers .protocol) = some l := by
          rw [r6]; simp [collect, Header.C49_subprotocols l (hp l hcl)]
        simp only [this]
        rw [if_neg (by simp [r6])]
        cases hsl : s.selector with
        | none =>
          refine ⟨_, rfl, ?_⟩
          intro p hp
          exact ⟨l, rfl, (pick_mem ho hp).1⟩
        | some select =>
          refine ⟨_, rfl, ?_⟩
          intro p hp
          exact ⟨l, rfl, hsel select hsl _ _ _ hp⟩
  obtain ⟨sub, hsub, hsubmem⟩ := hsub
  refine ⟨_, sub, accepted_of digest hs he (basic_connection r1 r2).1 hk hext hsub, ?_⟩
  -- the client
  intro response hv hst hsame
  have a1 : s.respond digest (keyOf nonce) sub .connection = [tUpgradeCapital] := by
    unfold Server.respond
    rw [apart hse (by decide)]
    cases sub <;> simp [Headers.add, Headers.empty]
  have a2 : s.respond digest (keyOf nonce) sub .upgrade = [tWebsocket] := by
    unfold Server.respond
    rw [apart hse (by decide)]
    cases sub <;> simp [Headers.add, Headers.empty]
  have a3 : s.respond digest (keyOf nonce) sub .accept = [digest (keyOf nonce ++ guid)] := by
    unfold Server.respond
    rw [apart hse (by decide)]
    cases sub <;> simp [Headers.add, Headers.empty, Server.acceptKey]
  have a4 : s.respond digest (keyOf nonce) sub .extensions = [] := by
    unfold Server.respond
    rw [apart hse (by decide)]
    cases sub <;> simp [Headers.add, Headers.empty]
  have a5 : s.respond digest (keyOf nonce) sub .protocol = sub.toList := by
    unfold Server.respond
    rw [apart hse (by decide)]
    cases sub <;> simp [Headers.add, Headers.empty]
  have c1 := (hsame .connection (by decide)).trans a1
  have c2 := (hsame .upgrade (by decide)).trans a2
  have c3 := (hsame .accept (by decide)).trans a3
  have c4 := (hsame .extensions (by decide)).trans a4
  have c5 := (hsame .protocol (by decide)).trans a5
  have hce' : c.extensionsOf response.headers = .inr [] := by simp [Client.extensionsOf, c4]
  have hcs : c.subprotocolOf response.headers = .inr sub := by
    unfold Client.subprotocolOf
    cases hsb : sub with
    | none => simp [c5, hsb]
    | some p =>
      rw [hsb] at c5
      obtain ⟨l, hl, hpl⟩ := hsubmem p hsb
      have : collect parseConnections [p] = some [p] := by
        have := Header.C49_subprotocols [p] (by simpa using hp l hl p hpl)
        simp [buildSubprotocols, Header.join] at this
        simp [collect, this]
      simp [c5, hl, this, hpl]
  simp [Client.check, hv, hst, (basic_connection c1 c2).2, c3, hce', hcs]

def plainUrl : Url := ⟨"a.b".toList, "a.b".toList, none, true, none, none⟩

def plainClient (subprotocols : Option (List Text)) : Client := ⟨plainUrl, none, none, subprotocols, []⟩

def plainServer (subprotocols : Option (List Text)) : Server :=
  { serving := true, early := none, origin := none, extensions := none, subprotocols := subprotocols, selector := none, extra := [] }

example : ∃ sent, (plainClient (some [['a'], ['b']])).request (List.replicate 16 7) = some sent ∧
    sent .key = ["BwcHBwcHBwcHBwcHBwcHBw==".toList] ∧ sent .protocol = ["a, b".toList] ∧
    ∃ answer, (plainServer (some [['b'], ['c']])).handshake id id ⟨"GET".toList, (1, 1), sent⟩ = .accepted answer (some ['b']) [] ∧
      (plainClient (some [['a'], ['b']])).check id (List.replicate 16 7) ⟨(1, 1), 101, answer⟩ = .opened (some ['b']) [] := by
  refine ⟨_, rfl, by with_unfolding_all rfl, by with_unfolding_all rfl, _, by with_unfolding_all rfl, by with_unfolding_all rfl⟩

/-- **C118.** Additional headers of the server are added to those of the handshake: with a `Sec-WebSocket-Protocol` of its own, the
response has two subprotocols, and every client which offers subprotocols refuses it. -/
theorem C118_extra_violated (digest : Text → Text) (nonce : Bytes) (hn : nonce.length = 16) :
    ∃ (c : Client) (s : Server) (sent answer : Headers), c.request nonce = some sent ∧
      s.handshake digest id ⟨"GET".toList, (1, 1), sent⟩ = .accepted answer (some ['a']) [] ∧
      c.check digest nonce ⟨(1, 1), 101, answer⟩ = .invalidHandshake := by
  have key : decodedLength (keyOf nonce) = some 16 := keyOf_valid nonce hn
  let c := plainClient (some [['a'], ['b']])
  let s := { plainServer (some [['a']]) with extra := [(.protocol, ['b'])] }
  have hc : ∃ sent, c.request nonce = some sent ∧ sent .connection = [tUpgradeCapital] ∧ sent .upgrade = [tWebsocket] ∧
      sent .key = [keyOf nonce] ∧ sent .version = [t13] ∧ sent .protocol = [['a', ',', ' ', 'b']] := by
    refine ⟨_, rfl, rfl, rfl, rfl, rfl, rfl⟩
  obtain ⟨sent, hsent, h1, h2, h3, h4, h5⟩ := hc
  have hp : s.subprotocolOf id sent = some (some ['a']) := by
    unfold Server.subprotocolOf
    rw [h5]
    with_unfolding_all rfl
  have hk : checkKey sent = some (keyOf nonce) := by
    unfold checkKey; rw [h3, h4]; simp [key]
  have ha := accepted_of (s := s) (order := id) (r := ⟨"GET".toList, (1, 1), sent⟩) digest rfl rfl (basic_connection h1 h2).1 hk rfl hp
  refine ⟨c, s, sent, _, hsent, ha, ?_⟩
  have a1 : (s.respond digest (keyOf nonce) (some ['a'])) .connection = [tUpgradeCapital] := rfl
  have a2 : (s.respond digest (keyOf nonce) (some ['a'])) .upgrade = [tWebsocket] := rfl
  have a3 : (s.respond digest (keyOf nonce) (some ['a'])) .accept = [digest (keyOf nonce ++ guid)] := rfl
  have a4 : c.subprotocolOf (s.respond digest (keyOf nonce) (some ['a'])) = .inl .invalidHandshake := by with_unfolding_all rfl
  have a5 : c.extensionsOf (s.respond digest (keyOf nonce) (some ['a'])) = .inr [] := rfl
  simp [Client.check, (basic_connection a1 a2).2, a3, a4, a5]

/-! ### C119 -/

/-- What a server has to require of a request (RFC 6455, 4.2.1). -/
structure ValidRequest (r : Request) : Prop where
  method : r.method = "GET".toList
  version : r.version.1 > 1 ∨ (r.version.1 = 1 ∧ r.version.2 ≥ 1)
  host : ∃ host, r.headers .host = [host]
  connection : AsksUpgrade r.headers
  upgrade : ToWebSocket r.headers
  key : ∃ key, r.headers .key = [key] ∧ KeyText key
  webSocketVersion : r.headers .version = ["13".toList]

/-- **C119.** If a request is accepted then `Connection` asks for an upgrade, the key is the only one and is sixteen bytes, the version is
`13`, and `Upgrade` has a single name, or has `websocket` as the first one; the response proves that the key was read.  Not so: that the
single name is `websocket`, and what is required of the method, of the version and of `Host`. -/
theorem C119_accepted_partial (digest : Text → Text) (order : List Text → List Text) (s : Server) (r : Request) (answer : Headers)
    (sub : Option Text) (ext : List Text) (h : s.handshake digest order r = .accepted answer sub ext) :
    AsksUpgrade r.headers ∧
    (∃ names, Lists Protocol names (r.headers .upgrade) ∧ (names.length = 1 ∨ ∃ v rest, names = v :: rest ∧ Is "websocket" v)) ∧
    r.headers .version = ["13".toList] ∧
    ∃ key, r.headers .key = [key] ∧ KeyText key ∧
      digest (key ++ "258EAFA5-E914-47DA-95CA-C5AB0DC85B11".toList) ∈ answer .accept := by
  obtain ⟨_, _, hc, key, hk, _, _, ha⟩ := accepted_inv h
  obtain ⟨h1, h2⟩ := (checkConnection_iff _).mp hc
  obtain ⟨h3, h4, h5⟩ := (checkKey_iff _ _).mp hk
  refine ⟨h1, h2, h5, key, h3, h4, ?_⟩
  have keep : ∀ (extra : List (Field × Text)) (h : Headers) (f : Field) (v : Text), v ∈ h f → v ∈ h.addAll extra f := by
    intro extra
    induction extra with
    | nil => intro h f v hv; exact hv
    | cons e extra ih =>
      intro h f v hv
      apply ih
      show v ∈ (h.add e.1 e.2) f
      unfold Headers.add
      split
      · exact List.mem_append_left _ hv
      · exact hv
  rw [ha]
  unfold Server.respond
  apply keep
  cases sub <;> simp [Headers.add, Headers.empty, Server.acceptKey] <;> rfl

/-- **C119.** A valid request is accepted, if it names `websocket` first in `Upgrade`; whether a subprotocol or an extension is wanted or
not. -/
theorem C119_accepts_partial (digest : Text → Text) (order : List Text → List Text) (s : Server) (r : Request) (hv : ValidRequest r)
    (hs : s.serving = true) (he : s.early = none) (hx : s.extensions = none ∨ r.headers .extensions = [])
    (hp : ∃ names, Lists Token names (r.headers .protocol))
    (hu : ∀ names, Lists Protocol names (r.headers .upgrade) → ∃ v rest, names = v :: rest ∧ Is "websocket" v) :
    ∃ answer sub, s.handshake digest order r = .accepted answer sub [] := by
  obtain ⟨key, hk1, hk2⟩ := hv.key
  obtain ⟨names, hn⟩ := hp
  have hx' : s.extensionsOf r.headers = .inr [] := by
    unfold Server.extensionsOf
    rcases hx with hx | hx
    · rw [hx]
    · cases s.extensions with
      | none => rfl
      | some l => simp [hx, collect, matchExtensions]
  have hp' : ∃ sub, s.subprotocolOf order r.headers = some sub := by
    unfold Server.subprotocolOf
    cases s.subprotocols with
    | none => exact ⟨_, rfl⟩
    | some available =>
      simp only [(collect_connections _ _).mpr hn]
      split
      · exact ⟨_, rfl⟩
      · cases s.selector <;> exact ⟨_, rfl⟩
  obtain ⟨sub, hp'⟩ := hp'
  obtain ⟨up, hup, _⟩ := hv.upgrade
  exact ⟨_, sub, accepted_of digest hs he ((checkConnection_iff _).mpr ⟨hv.connection, up, hup, .inr (hu up hup)⟩)
    ((checkKey_iff _ _).mpr ⟨hk1, hk2, hv.webSocketVersion⟩) hx' hp'⟩

/-- The headers of a request, with some `Upgrade` and some hosts. -/
def requestHeaders (upgrade : Text) (hosts : List Text) : Headers
  | .connection => ["keep-alive, Upgrade".toList]
  | .upgrade => [upgrade]
  | .host => hosts
  | .key => ["AAAAAAAAAAAAAAAAAAAAAA==".toList]
  | .version => ["13".toList]
  | _ => []

theorem request_parts (upgrade : Text) (hosts : List Text) : AsksUpgrade (requestHeaders upgrade hosts) ∧
    checkKey (requestHeaders upgrade hosts) = some "AAAAAAAAAAAAAAAAAAAAAA==".toList := by
  constructor
  · exact ⟨["keep-alive".toList, "Upgrade".toList], (collect_connections _ _).mp (by with_unfolding_all rfl), "Upgrade".toList, by simp,
      by with_unfolding_all rfl⟩
  · with_unfolding_all rfl

theorem accepts_upgrade (digest : Text → Text) (order : List Text → List Text) (m : Text) (v : Nat × Nat) (upgrade : Text)
    (hosts : List Text) (hu : Protocol upgrade) : ∃ answer,
      (plainServer none).handshake digest order ⟨m, v, requestHeaders upgrade hosts⟩ = .accepted answer none [] := by
  obtain ⟨h1, h2⟩ := request_parts upgrade hosts
  have hl : Lists Protocol [upgrade] [upgrade] := by
    have := Lists.cons (WritesNames.last [] upgrade [] (by intro c hc; cases hc) hu (by intro c hc; cases hc)) Lists.nil
    simpa using this
  exact ⟨_, accepted_of digest rfl rfl ((checkConnection_iff _).mpr ⟨h1, [upgrade], hl, .inl rfl⟩) h2 rfl rfl⟩

/-- **C119.** Violated: whatever the method and the version are, whatever a request upgrades to and whether it has a host or not, it is
accepted; even a `POST` of HTTP 1.0 to `h2c`. -/
theorem C119_violated (digest : Text → Text) (order : List Text → List Text) (m : Text) (v : Nat × Nat) (upgrade : Text)
    (hosts : List Text) (hu : Protocol upgrade) : ∃ (s : Server) (r : Request) (answer : Headers), r.method = m ∧ r.version = v ∧ r.headers .upgrade = [upgrade] ∧
      r.headers .host = hosts ∧ s.handshake digest order r = .accepted answer none [] :=
  have ⟨answer, h⟩ := accepts_upgrade digest order m v upgrade hosts hu
  ⟨_, _, answer, rfl, rfl, rfl, rfl, h⟩

example : ¬ ∀ (s : Server) (r : Request) (answer : Headers), s.handshake id id r = .accepted answer none [] → ValidRequest r := by
  intro h
  obtain ⟨s, r, answer, _, _, hu, _, ha⟩ := C119_violated id id "POST".toList (1, 0) "h2c".toList []
    (.inl ⟨by decide, by decide⟩)
  obtain ⟨names, hl, v, hv, hi⟩ := (h s r answer ha).upgrade
  rw [hu] at hl
  have := (collect_upgrades _ _).mpr hl
  have e : collect parseUpgrades ["h2c".toList] = some ["h2c".toList] := by with_unfolding_all rfl
  rw [e] at this
  cases this
  cases List.mem_singleton.mp hv
  revert hi
  unfold Is
  decide

/-- **C119.** And the other way around: a request which offers a second protocol to upgrade to is valid, but is refused if `websocket`
is not the first one. -/
theorem C119_second_violated (digest : Text → Text) (order : List Text → List Text) : ∃ r, ValidRequest r ∧
    (plainServer none).handshake digest order r = .refused 426 := by
  refine ⟨⟨"GET".toList, (1, 1), requestHeaders "h2c, websocket".toList ["a".toList]⟩, ⟨rfl, by simp, ⟨_, rfl⟩,
    (request_parts _ _).1, ?_, ?_, rfl⟩, by with_unfolding_all rfl⟩
  · exact ⟨["h2c".toList, "websocket".toList], (collect_upgrades _ _).mp (by with_unfolding_all rfl), "websocket".toList, by simp,
      by with_unfolding_all rfl⟩
  · have := (checkKey_iff _ _).mp (request_parts "h2c, websocket".toList ["a".toList]).2
    exact ⟨_, this.1, this.2.1⟩

example : ValidRequest ⟨"GET".toList, (1, 1), requestHeaders "WebSocket".toList ["a".toList]⟩ := by
  have := (checkKey_iff _ _).mp (request_parts "WebSocket".toList ["a".toList]).2
  exact ⟨rfl, by simp, ⟨_, rfl⟩, (request_parts _ _).1, ⟨["WebSocket".toList], (collect_upgrades _ _).mp (by with_unfolding_all rfl),
    "WebSocket".toList, by simp, by with_unfolding_all rfl⟩, ⟨_, this.1, this.2.1⟩, rfl⟩

/-! ### C120 -/

/-- What a client has to require of a response, but for extensions (RFC 6455, 4.1). -/
structure ValidResponse (digest : Text → Text) (c : Client) (nonce : Bytes) (r : Response) : Prop where
  status : r.status = 101
  connection : AsksUpgrade r.headers
  upgrade : ToWebSocket r.headers
  accept : r.headers .accept = [digest (keyOf nonce ++ "258EAFA5-E914-47DA-95CA-C5AB0DC85B11".toList)]
  protocol : r.headers .protocol = [] ∨ ∃ p offered, Lists Token [p] (r.headers .protocol) ∧ c.subprotocols = some offered ∧ p ∈ offered
  extensions : r.headers .extensions = [] ∨ c.extensions ≠ none

/-- **C120.** If the client accepts a response then its status, its version and its `Connection` are right, it has exactly one accept key
and that is the one of the client's key, the subprotocol is none or one the client has offered, and there are extensions only if the
client has some.  Not so: that `Upgrade` is `websocket`, if it is a single name. -/
theorem C120_opened_partial (digest : Text → Text) (c : Client) (nonce : Bytes) (r : Response) (sub : Option Text) (ext : List Text)
    (h : c.check digest nonce r = .opened sub ext) :
    r.version = (1, 1) ∧ r.status = 101 ∧ AsksUpgrade r.headers ∧
    (∃ names, Lists Protocol names (r.headers .upgrade) ∧ (names.length = 1 ∨ ∃ v rest, names = v :: rest ∧ Is "websocket" v)) ∧
    r.headers .accept = [digest (keyOf nonce ++ "258EAFA5-E914-47DA-95CA-C5AB0DC85B11".toList)] ∧
    (match sub with
      | none => r.headers .protocol = []
      | some p => Lists Token [p] (r.headers .protocol) ∧ ∃ offered, c.subprotocols = some offered ∧ p ∈ offered) ∧
    (r.headers .extensions = [] ∨ c.extensions ≠ none) := by
  obtain ⟨h1, h2, h3, h4, h5, h6⟩ := opened_inv h
  obtain ⟨h7, h8⟩ := (responseConnection_iff _).mp h3
  refine ⟨h1, h2, h7, h8, h4, ?_, ?_⟩
  · unfold Client.subprotocolOf at h6
    split at h6
    · rename_i hn; cases h6; exact hn
    · split at h6
      · cases h6
      · rename_i available ha
        split at h6
        · cases h6
        · cases h6
        · rename_i p hp
          split at h6
          · rename_i hm
            cases h6
            exact ⟨(collect_connections _ _).mp hp, available, ha, hm⟩
          · cases h6
        · cases h6
  · unfold Client.extensionsOf at h5
    split at h5
    · rename_i hn; exact .inl hn
    · right; intro hx; rw [hx] at h5; cases h5

/-- **C120.** A valid response without extensions is accepted, with its subprotocol, if `websocket` is the first name of `Upgrade`. -/
theorem C120_opens (digest : Text → Text) (c : Client) (nonce : Bytes) (r : Response) (hv : ValidResponse digest c nonce r)
    (h11 : r.version = (1, 1)) (hx : r.headers .extensions = [])
    (hu : ∀ names, Lists Protocol names (r.headers .upgrade) → ∃ v rest, names = v :: rest ∧ Is "websocket" v) :
    ∃ sub, c.check digest nonce r = .opened sub [] ∧ ∀ p, sub = some p ↔ Lists Token [p] (r.headers .protocol) := by
  obtain ⟨up, hup, _⟩ := hv.upgrade
  have hc := (responseConnection_iff _).mpr ⟨hv.connection, up, hup, .inr (hu up hup)⟩
  have he : c.extensionsOf r.headers = .inr [] := by simp [Client.extensionsOf, hx]
  have hacc : r.headers .accept = [digest (keyOf nonce ++ guid)] := hv.accept
  rcases hv.protocol with hp | ⟨p, offered, hl, hs, hm⟩
  · refine ⟨none, ?_, ?_⟩
    · simp [Client.check, h11, hv.status, hc, hacc, he, Client.subprotocolOf, hp]
    · intro p
      rw [hp]
      constructor
      · intro e; cases e
      · intro h; generalize hl : [p] = l at h; cases h; cases hl
  · have hne : r.headers .protocol ≠ [] := by
      intro hn; rw [hn] at hl; generalize hl' : [p] = l at hl; cases hl; cases hl'
    have hcl := (collect_connections _ _).mpr hl
    refine ⟨some p, ?_, ?_⟩
    · simp [Client.check, h11, hv.status, hc, hacc, he, Client.subprotocolOf, hne, hs, hcl, hm]
    · intro q
      constructor
      · intro e; cases e; exact hl
      · intro h
        have := (collect_connections _ _).mpr h
        rw [hcl] at this
        cases this; rfl

/-- The headers of a response. -/
def responseHeaders (upgrade : List Text) (accept : Text) : Headers
  | .connection => ["Upgrade".toList]
  | .upgrade => upgrade
  | .accept => [accept]
  | _ => []

theorem response_asks (upgrade : List Text) (accept : Text) : AsksUpgrade (responseHeaders upgrade accept) :=
  ⟨["Upgrade".toList], (collect_connections _ _).mp (by with_unfolding_all rfl), "Upgrade".toList, by simp, by with_unfolding_all rfl⟩

/-- **C120.** Violated: whatever single protocol a response upgrades to, it is accepted. -/
theorem C120_upgrade_violated (digest : Text → Text) (nonce : Bytes) (upgrade : Text) (hu : Protocol upgrade) (c : Client) :
    c.check digest nonce ⟨(1, 1), 101, responseHeaders [upgrade] (digest (keyOf nonce ++ guid))⟩ = .opened none [] := by
  have hl : Lists Protocol [upgrade] [upgrade] := by
    have := Lists.cons (WritesNames.last [] upgrade [] (by intro c hc; cases hc) hu (by intro c hc; cases hc)) Lists.nil
    simpa using this
  have hc := (responseConnection_iff _).mpr ⟨response_asks [upgrade] (digest (keyOf nonce ++ guid)), [upgrade], hl, .inl rfl⟩
  simp [Client.check, hc, responseHeaders, Client.extensionsOf, Client.subprotocolOf]

example (digest : Text → Text) (nonce : Bytes) (c : Client) :
    c.check digest nonce ⟨(1, 1), 101, responseHeaders ["h2c".toList] (digest (keyOf nonce ++ guid))⟩ = .opened none [] ∧
    ¬ ToWebSocket (responseHeaders ["h2c".toList] (digest (keyOf nonce ++ guid))) := by
  refine ⟨C120_upgrade_violated _ _ _ (.inl ⟨by decide, by decide⟩) _, ?_⟩
  rintro ⟨names, hl, v, hv, hi⟩
  have := (collect_upgrades _ _).mpr hl
  have e : collect parseUpgrades ["h2c".toList] = some ["h2c".toList] := by with_unfolding_all rfl
  have e' : responseHeaders ["h2c".toList] (digest (keyOf nonce ++ guid)) .upgrade = ["h2c".toList] := rfl
  rw [e', e] at this
  cases this
  cases List.mem_singleton.mp hv
  revert hi
  unfold Is
  decide

/-- **C120.** Violated: a response without `Upgrade` ends in an `IndexError`, not in an `InvalidHandshake`; so does one with a
`Sec-WebSocket-Protocol` which is empty. -/
theorem C120_error_violated (digest : Text → Text) (nonce : Bytes) (c : Client) (offered : List Text)
    (hc : c.subprotocols = some offered) : c.check digest nonce ⟨(1, 1), 101, responseHeaders [] (digest (keyOf nonce ++ guid))⟩ =
      .indexError ∧
    c.check digest nonce ⟨(1, 1), 101, (responseHeaders ["websocket".toList] (digest (keyOf nonce ++ guid))).add .protocol []⟩ =
      .indexError := by
  constructor
  · have : checkResponseConnection (responseHeaders [] (digest (keyOf nonce ++ guid))) = some .indexError := by with_unfolding_all rfl
    simp [Client.check, this]
  · have h := (basic_connection (h := (responseHeaders ["websocket".toList] (digest (keyOf nonce ++ guid))).add .protocol [])
      (by simp [Headers.add, responseHeaders]) (by simp [Headers.add, responseHeaders])).2
    have hl : collect parseConnections [[]] = some [] := by with_unfolding_all rfl
    unfold Client.check
    simp only [h]
    simp [Client.extensionsOf, Client.subprotocolOf, hc, Headers.add, responseHeaders, hl]

/-- **C120.** Every other response that is not accepted raises an `InvalidHandshake`: if its headers are lists, `Upgrade` names something,
and so does `Sec-WebSocket-Protocol` if there is one. -/
theorem C120_error_partial (digest : Text → Text) (nonce : Bytes) (c : Client) (r : Response)
    (h1 : ∃ names, Lists Token names (r.headers .connection)) (h2 : ∃ v names, Lists Protocol (v :: names) (r.headers .upgrade))
    (h3 : r.headers .protocol = [] ∨ ∃ v names, Lists Token (v :: names) (r.headers .protocol))
    (h4 : r.headers .extensions = []) :
    c.check digest nonce r = .invalidHandshake ∨ ∃ sub, c.check digest nonce r = .opened sub [] := by
  obtain ⟨connections, h1⟩ := h1
  obtain ⟨v, names, h2⟩ := h2
  have hcon : checkResponseConnection r.headers = none ∨ checkResponseConnection r.headers = some .invalidHandshake := by
    unfold checkResponseConnection
    simp only [(collect_connections _ _).mpr h1, (collect_upgrades _ _).mpr h2]
    split
    · unfold checkUpgrade
      by_cases hl : (v :: names).length ≠ 1
      · rw [if_pos hl]
        by_cases hw : lower v ≠ tWebsocket
        · simp only [if_pos hw]; exact .inr trivial
        · simp only [if_neg hw]; exact .inl trivial
      · rw [if_neg hl]; exact .inl rfl
    · exact .inr rfl
  have hext : c.extensionsOf r.headers = .inr [] := by simp [Client.extensionsOf, h4]
  have hsub : c.subprotocolOf r.headers = .inl .invalidHandshake ∨ ∃ sub, c.subprotocolOf r.headers = .inr sub := by
    unfold Client.subprotocolOf
    rcases h3 with h3 | ⟨p, ps, h3⟩
    · rw [if_pos h3]; exact .inr ⟨_, rfl⟩
    · have hne : r.headers .protocol ≠ [] := by
        intro hn; rw [hn] at h3; generalize hl' : p :: ps = l at h3; cases h3; cases hl'
      rw [if_neg hne]
      cases c.subprotocols with
      | none => exact .inl rfl
      | some offered =>
        simp only [(collect_connections _ _).mpr h3]
        cases ps with
        | nil =>
          by_cases hm : p ∈ offered
          · simp [hm]
          · simp [hm]
        | cons => exact .inl rfl
  unfold Client.check
  by_cases hv : r.version ≠ (1, 1)
  · rw [if_pos hv]; exact .inl rfl
  rw [if_neg hv]
  by_cases hst : r.status ≠ 101
  · rw [if_pos hst]; exact .inl rfl
  rw [if_neg hst]
  rcases hcon with hcon | hcon
  · simp only [hcon]
    by_cases ha : r.headers .accept ≠ [digest (keyOf nonce ++ guid)]
    · rw [if_pos ha]; exact .inl rfl
    rw [if_neg ha]
    simp only [hext]
    rcases hsub with hsub | ⟨sub, hsub⟩
    · simp [hsub]
    · simp [hsub]
  · simp [hcon]

/-! ### C121 -/

/-- **C121.** Violated: what origin a server is restricted to does not matter, and neither does which one a request has: it is accepted
or refused in the same way. -/
theorem C121_origin_violated (digest : Text → Text) (order : List Text → List Text) (s : Server) (r : Request) (origin : Option Text)
    (origins : List Text) :
    ({ s with origin := origin }).handshake digest order
      { r with headers := fun f => if f = Field.origin then origins else r.headers f } = s.handshake digest order r := by
  have h1 : checkConnection (fun f => if f = Field.origin then origins else r.headers f) = checkConnection r.headers := by
    simp [checkConnection]
  have h2 : checkKey (fun f => if f = Field.origin then origins else r.headers f) = checkKey r.headers := by simp [checkKey]
  have h3 : ({ s with origin := origin } : Server).extensionsOf (fun f => if f = Field.origin then origins else r.headers f) =
      s.extensionsOf r.headers := by simp [Server.extensionsOf]
  have h4 : ({ s with origin := origin } : Server).subprotocolOf order (fun f => if f = Field.origin then origins else r.headers f) =
      s.subprotocolOf order r.headers := by simp [Server.subprotocolOf]
  have h5 : ∀ key sub, ({ s with origin := origin } : Server).respond digest key sub = s.respond digest key sub := fun _ _ => rfl
  unfold Server.handshake
  simp only [origin_never, h1, h2, h3, h4, h5]
  rfl

/-- A server for `a.b` accepts a page of `c.d`. -/
example (digest : Text → Text) : ∃ answer, ({ plainServer none with origin := some "https://a.b".toList }).handshake digest id
    ⟨"GET".toList, (1, 1), (requestHeaders "websocket".toList ["a.b".toList]).add .origin "https://c.d".toList⟩ =
      .accepted answer none [] := by
  obtain ⟨answer, ha⟩ := accepts_upgrade digest id "GET".toList (1, 1) "websocket".toList ["a.b".toList] (.inl ⟨by decide, by decide⟩)
  have e : (requestHeaders "websocket".toList ["a.b".toList]).add .origin "https://c.d".toList =
      fun f => if f = Field.origin then ["https://c.d".toList] else requestHeaders "websocket".toList ["a.b".toList] f := by
    funext f
    cases f <;> simp [Headers.add, requestHeaders]
  rw [e]
  exact ⟨answer, (C121_origin_violated digest id (plainServer none) ⟨"GET".toList, (1, 1), _⟩ (some "https://a.b".toList) _).trans ha⟩

/-- **C121.** Even if the attribute were kept, only the number of origins of a request would be checked: each single origin passes. -/
theorem C121_kept_violated (own origin : Text) (h : Headers) (ho : h .origin = [origin]) : originRefusedFor (some own) h = false := by
  simp [originRefusedFor, ho, inside_self]

end Verif.Handshake
