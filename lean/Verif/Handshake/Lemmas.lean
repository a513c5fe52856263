import Verif.Handshake.Model
import Verif.Header.PropsExact

/-!
# Lemmas of the handshake
-/
namespace Verif.Handshake
open Verif.Header (Text Answer Parameter parseConnections parseUpgrades parseExtensions buildSubprotocols buildExtensions lowerChar
  WritesNames Token Protocol)

/-! ### What the headers say: the specification -/

/-- The values of a header list the names: each of the values is a list of names, in some layout. -/
inductive Lists (isName : Text → Prop) : List Text → List Text → Prop
  | nil : Lists isName [] []
  | cons {part names values : List Text} {value : Text} : WritesNames isName part value → Lists isName names values →
    Lists isName (part ++ names) (value :: values)

/-- Equal but for capitals; the word has none. -/
def Is (word : String) (t : Text) : Prop := t.map Char.toLower = word.toList

/-- `Connection` has `upgrade` in it. -/
def AsksUpgrade (h : Headers) : Prop := ∃ names, Lists Token names (h .connection) ∧ ∃ v ∈ names, Is "upgrade" v

/-- `Upgrade` has `websocket` in it. -/
def ToWebSocket (h : Headers) : Prop := ∃ names, Lists Protocol names (h .upgrade) ∧ ∃ v ∈ names, Is "websocket" v

def alphabet : Text := "ABCDEFGHIJKLMNOPQRSTUVWXYZabcdefghijklmnopqrstuvwxyz0123456789+/".toList

/-- The base 64 encoding of sixteen bytes. -/
def KeyText (key : Text) : Prop := ∃ digits : Text, digits.length = 22 ∧ (∀ c ∈ digits, c ∈ alphabet) ∧ key = digits ++ ['=', '=']

/-! ### Texts -/

theorem lowerChar_eq (c : Char) : lowerChar c = c.toLower := by
  have key : ∀ n : Fin 128, lowerChar (Char.ofNat n.val) = (Char.ofNat n.val).toLower := by decide +kernel
  by_cases hc : c.toNat < 128
  · have := key ⟨c.toNat, hc⟩
    simpa only [Char.ofNat_toNat] using this
  · have hA : 'A'.toNat = 65 := rfl
    have hZ : 'Z'.toNat = 90 := rfl
    unfold lowerChar Char.toLower
    rw [dif_neg, if_neg]
    · simp only [hA, hZ, Bool.and_eq_true, decide_eq_true_eq]; omega
    · rintro ⟨_, h⟩
      have h : c.toNat ≤ 90 := h
      omega

theorem lower_eq (t : Text) : lower t = t.map Char.toLower := by
  unfold lower; congr 1; exact funext lowerChar_eq

theorem is_upgrade (t : Text) : lower t = tUpgrade ↔ Is "upgrade" t := by
  rw [lower_eq]; exact Iff.rfl

theorem is_websocket (t : Text) : lower t = tWebsocket ↔ Is "websocket" t := by
  rw [lower_eq]; exact Iff.rfl

theorem upgrades_iff (l : List Text) : upgrades l = true ↔ ∃ v ∈ l, Is "upgrade" v := by
  simp [upgrades, is_upgrade]

/-! ### Lists -/

theorem collect_iff {isName : Text → Prop} {parse : Text → Answer (List Text)}
    (hp : ∀ s l, parse s = some (.ok l) ↔ WritesNames isName l s) (values : List Text) :
    ∀ names, collect parse values = some names ↔ Lists isName names values := by
  induction values with
  | nil =>
    intro names
    constructor
    · intro h; cases h; exact .nil
    · intro h; cases h; rfl
  | cons value values ih =>
    intro names
    constructor
    · intro h
      simp only [collect] at h
      split at h
      · rename_i l hl
        split at h
        · rename_i m hm
          cases h
          exact .cons ((hp _ _).mp hl) ((ih _).mp hm)
        · cases h
      · cases h
    · intro h
      cases h with
      | cons hw hl => simp [collect, (hp _ _).mpr hw, (ih _).mpr hl]

theorem collect_connections (values names : List Text) :
    collect parseConnections values = some names ↔ Lists Token names values := collect_iff Header.C78_connections_exact values names

theorem collect_upgrades (values names : List Text) :
    collect parseUpgrades values = some names ↔ Lists Protocol names values := collect_iff Header.C78_upgrades_exact values names

/-! ### Keys -/

theorem b64Char_iff (c : Char) : b64Char c = true ↔ c ∈ alphabet := by
  constructor
  · intro h
    have key : ∀ n : Fin 128, b64Char (Char.ofNat n.val) = true → Char.ofNat n.val ∈ alphabet := by decide +kernel
    have hlt : c.toNat < 128 := by
      simp only [b64Char, Bool.or_eq_true, Bool.and_eq_true, decide_eq_true_eq] at h
      have e1 : 'Z'.toNat = 90 := rfl
      have e2 : 'z'.toNat = 122 := rfl
      have e3 : '9'.toNat = 57 := rfl
      rcases h with (((⟨_, h⟩ | ⟨_, h⟩) | ⟨_, h⟩) | h) | h
      · have : c.toNat ≤ 90 := h
        omega
      · have : c.toNat ≤ 122 := h
        omega
      · have : c.toNat ≤ 57 := h
        omega
      · subst h; decide
      · subst h; decide
    have := key ⟨c.toNat, hlt⟩
    simp only [Char.ofNat_toNat] at this
    exact this h
  · have key : ∀ c ∈ alphabet, b64Char c = true := by decide +kernel
    exact key c

theorem pad_not : b64Char '=' = false := by decide

theorem decoded_iff (k : Nat) : ∀ t, decodedLength t = some (3 * k + 1) ↔
    ∃ d : Text, d.length = 4 * k + 2 ∧ (∀ c ∈ d, b64Char c = true) ∧ t = d ++ ['=', '='] := by
  induction k with
  | zero =>
    intro t
    constructor
    · intro h
      unfold decodedLength at h
      split at h
      · cases h
      · rename_i a b c d rest
        split at h
        · rename_i hab
          split at h
          · split at h
            · cases hr : decodedLength rest with
              | none => rw [hr] at h; cases h
              | some n => rw [hr] at h; simp at h
            · split at h <;> simp at h
          · split at h
            · rename_i hcd
              simp only [Bool.and_eq_true, decide_eq_true_eq] at hcd hab
              obtain ⟨⟨rfl, rfl⟩, rfl⟩ := hcd
              exact ⟨[a, b], rfl, by simp [hab.1, hab.2], rfl⟩
            · cases h
        · cases h
      · cases h
    · rintro ⟨d, hl, hd, rfl⟩
      match d, hl, hd with
      | [a, b], _, hd =>
        simp [decodedLength, hd a, hd b, pad_not]
  | succ k ih =>
    intro t
    constructor
    · intro h
      unfold decodedLength at h
      split at h
      · simp at h
      · rename_i a b c d rest
        split at h
        · rename_i hab
          split at h
          · rename_i hc
            split at h
            · rename_i hd
              cases hr : decodedLength rest with
              | none => rw [hr] at h; cases h
              | some n =>
                rw [hr] at h
                simp only [Option.map_some, Option.some.injEq] at h
                obtain ⟨e, hl, he, rfl⟩ := (ih rest).mp (by rw [hr]; congr 1; omega)
                simp only [Bool.and_eq_true] at hab
                refine ⟨a :: b :: c :: d :: e, by simp [hl]; omega, ?_, rfl⟩
                intro x hx
                simp only [List.mem_cons] at hx
                rcases hx with rfl | rfl | rfl | rfl | hx
                · exact hab.1
                · exact hab.2
                · exact hc
                · exact hd
                · exact he x hx
            · split at h
              · simp only [Option.some.injEq] at h; omega
              · cases h
          · split at h
            · simp only [Option.some.injEq] at h; omega
            · cases h
        · cases h
      · cases h
    · rintro ⟨d, hl, hd, rfl⟩
      match d, hl, hd with
      | a :: b :: c :: d :: e, hl, hd =>
        have := (ih (e ++ ['=', '='])).mpr ⟨e, by simp only [List.length_cons] at hl; omega, fun x hx => hd x (by simp [hx]), rfl⟩
        simp [decodedLength, hd a, hd b, hd c, hd d, this]
        omega

theorem key_iff (t : Text) : decodedLength t = some 16 ↔ KeyText t := by
  have := decoded_iff 5 t
  simp only [b64Char_iff] at this
  exact this

theorem digit_char : ∀ n : Fin 64, b64Char (Char.ofNat (Multipart.b64Digit n.val).toNat) = true := by decide +kernel

theorem digit_char' {n : Nat} (h : n < 64) : b64Char (Char.ofNat (Multipart.b64Digit n).toNat) = true := digit_char ⟨n, h⟩

theorem ascii_key (k : Nat) : ∀ nonce : Bytes, nonce.length = 3 * k + 1 → ∃ d : Text, d.length = 4 * k + 2 ∧
    (∀ c ∈ d, b64Char c = true) ∧ ascii (Multipart.b64 nonce) = d ++ ['=', '='] := by
  induction k with
  | zero =>
    intro nonce h
    match nonce, h with
    | [a], _ =>
      refine ⟨_, ?_, ?_, by simp only [Multipart.b64, ascii, List.map]; exact (List.append_assoc [_, _] [] ['=', '=']).symm⟩
      · rfl
      · have := a.toNat_lt
        simp only [List.append_nil, List.mem_cons, List.not_mem_nil, or_false]
        rintro c (rfl | rfl)
        · exact digit_char' (by omega)
        · exact digit_char' (by omega)
  | succ k ih =>
    intro nonce h
    match nonce, h with
    | a :: b :: c :: rest, h =>
      obtain ⟨d, hl, hd, e⟩ := ih rest (by simp only [List.length_cons] at h; omega)
      have ha := a.toNat_lt
      have hb := b.toNat_lt
      have hc := c.toNat_lt
      refine ⟨ascii [Multipart.b64Digit (a.toNat / 4), Multipart.b64Digit (a.toNat % 4 * 16 + b.toNat / 16),
        Multipart.b64Digit (b.toNat % 16 * 4 + c.toNat / 64), Multipart.b64Digit (c.toNat % 64)] ++ d, ?_, ?_, ?_⟩
      rotate_left 2
      · rw [Multipart.b64, List.append_assoc, ← e]
        unfold ascii
        rw [List.map_append]
      · simp only [ascii, List.map, List.length_append, List.length_cons, List.length_nil, hl]; omega
      · intro x hx
        simp only [ascii, List.map, List.mem_append, List.mem_cons, List.not_mem_nil, or_false] at hx
        rcases hx with (rfl | rfl | rfl | rfl) | hx
        · exact digit_char' (by omega)
        · exact digit_char' (by omega)
        · exact digit_char' (by omega)
        · exact digit_char' (by omega)
        · exact hd x hx

theorem keyOf_valid (nonce : Bytes) (h : nonce.length = 16) : decodedLength (keyOf nonce) = some 16 :=
  (decoded_iff 5 _).mpr (ascii_key 5 nonce h)

/-! ### Headers -/

theorem add_other {h : Headers} {f g : Field} {v : Text} (hf : g ≠ f) : h.add f v g = h g := by
  simp [Headers.add, hf]

theorem add_new {h : Headers} {f : Field} {v : Text} (hf : h f = []) : h.add f v f = [v] := by
  simp [Headers.add, hf]

theorem addAll_other {f : Field} (extra : List (Field × Text)) (he : ∀ e ∈ extra, e.1 ≠ f) : ∀ h : Headers, h.addAll extra f = h f := by
  induction extra with
  | nil => intro h; rfl
  | cons e extra ih =>
    intro h
    show (h.add e.1 e.2).addAll extra f = h f
    rw [ih (fun e he' => he e (by simp [he'])), add_other (fun hf => he e (by simp) hf.symm)]

/-! ### Checks -/

theorem checkKey_iff (h : Headers) (key : Text) :
    checkKey h = some key ↔ h .key = [key] ∧ KeyText key ∧ h .version = ["13".toList] := by
  have h13 : t13 = "13".toList := rfl
  unfold checkKey
  split
  · rename_i k hk
    rw [hk]
    split
    · rename_i hd
      split
      · rename_i v hv
        rw [hv]
        split
        · rename_i e
          rw [e, h13]
          constructor
          · intro e; cases e; exact ⟨rfl, (key_iff _).mp hd, rfl⟩
          · rintro ⟨e, _⟩; cases e; rfl
        · rename_i e
          constructor
          · intro e; cases e
          · rintro ⟨_, _, e'⟩
            exact absurd ((List.cons.inj e').1.trans h13.symm) e
      · rename_i hn
        constructor
        · intro e; cases e
        · rintro ⟨_, _, e⟩; exact absurd e (hn _)
    · rename_i hd
      constructor
      · intro e; cases e
      · rintro ⟨e, hk', _⟩
        cases e
        exact absurd ((key_iff _).mpr hk') hd
  · rename_i hn
    constructor
    · intro e; cases e
    · rintro ⟨e, _⟩; exact absurd e (hn _)

/-- What the test of `Upgrade` lets pass. -/
def PassesUpgrade (names : List Text) : Prop := names.length = 1 ∨ ∃ v rest, names = v :: rest ∧ Is "websocket" v

theorem checkUpgrade_iff (names : List Text) : checkUpgrade names = .passed ↔ PassesUpgrade names := by
  unfold checkUpgrade PassesUpgrade
  split
  · rename_i hl
    split
    · simp
    · rename_i v rest
      simp only [ne_eq, List.length_cons] at hl
      by_cases hv : lower v = tWebsocket
      · rw [if_neg (fun h => h hv)]
        exact ⟨fun _ => .inr ⟨v, rest, rfl, (is_websocket v).mp hv⟩, fun _ => rfl⟩
      · rw [if_pos hv]
        constructor
        · intro e; cases e
        · rintro (h | ⟨_, _, h, hw⟩)
          · exact absurd h hl
          · cases h
            exact absurd ((is_websocket v).mpr hw) hv
  · rename_i hl
    simp only [ne_eq, Decidable.not_not] at hl
    simp [hl]

theorem checkConnection_iff (h : Headers) :
    checkConnection h = none ↔ AsksUpgrade h ∧ ∃ names, Lists Protocol names (h .upgrade) ∧ PassesUpgrade names := by
  unfold checkConnection
  split
  · rename_i hc
    constructor
    · intro e; cases e
    · rintro ⟨⟨names, hl, _⟩, _⟩
      rw [(collect_connections _ _).mpr hl] at hc; cases hc
  · rename_i connections hc
    have hc' := (collect_connections _ _).mp hc
    split
    · rename_i hu
      have hu' : AsksUpgrade h := ⟨connections, hc', (upgrades_iff _).mp hu⟩
      split
      · rename_i hcu
        constructor
        · intro e; cases e
        · rintro ⟨_, names, hl, _⟩
          rw [(collect_upgrades _ _).mpr hl] at hcu; cases hcu
      · rename_i upgrade hcu
        have key : (∃ names, Lists Protocol names (h .upgrade) ∧ PassesUpgrade names) ↔ PassesUpgrade upgrade := by
          constructor
          · rintro ⟨names, hl, hp⟩
            rw [(collect_upgrades _ _).mpr hl] at hcu
            cases hcu; exact hp
          · intro hp; exact ⟨_, (collect_upgrades _ _).mp hcu, hp⟩
        rw [key, ← checkUpgrade_iff]
        split <;> rename_i hk <;> simp [hk, hu']
    · rename_i hu
      constructor
      · intro e; cases e
      · rintro ⟨⟨names, hl, hv⟩, _⟩
        rw [(collect_connections _ _).mpr hl] at hc
        cases hc
        exact absurd ((upgrades_iff _).mpr hv) hu

theorem inside_self (t : Text) : inside t t = true := by
  cases t with
  | nil => rfl
  | cons c t => simp [inside]

theorem origin_never (s : Server) (h : Headers) : s.originRefused h = false := rfl

end Verif.Handshake
