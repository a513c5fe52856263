import Verif.WebSocket.Model
import Verif.Stream.Spec
/-! Specification vocabulary for WebSocket frames, following RFC 6455 sections 5.2, 5.3 and 5.5. Bits are described
arithmetically. -/
namespace Verif.WebSocket

/-- RFC 6455 5.2/5.5: reserved bits clear, known opcode, control frames final and at most 125 bytes. -/
def Valid (head0 length : Nat) : Prop :=
  head0 / 16 % 8 = 0 ∧
  (head0 % 16 = 0 ∨ head0 % 16 = 1 ∨ head0 % 16 = 2 ∨
    ((head0 % 16 = 8 ∨ head0 % 16 = 9 ∨ head0 % 16 = 10) ∧ 128 ≤ head0 ∧ length ≤ 125))

/-- Value of big-endian ("network byte order") bytes. -/
def bigEndian : List Byte → Nat
  | [] => 0
  | b :: bs => b.toNat * 256 ^ bs.length + bigEndian bs

/-- RFC 6455 5.2: how a header announces a payload length: `code` is the 7 bit field, `ext` the extended length bytes. -/
inductive Announces : (code : Nat) → (ext : List Byte) → (length : Nat) → Prop
  | short (length : Nat) : length ≤ 125 → Announces length [] length
  | two (ext : List Byte) : ext.length = 2 → Announces 126 ext (bigEndian ext)
  | eight (ext : List Byte) : ext.length = 8 → Announces 127 ext (bigEndian ext)

/-- RFC 6455 5.3: transformed-octet-i = original-octet-i XOR masking-key-octet-(i MOD 4). -/
def xorMask (m0 m1 m2 m3 : Byte) : List Byte → List Byte
  | [] => []
  | b :: bs => (b ^^^ m0) :: xorMask m1 m2 m3 m0 bs

/-- `max_size` does not forbid the length. -/
def Allowed (maxSize : Option Nat) (length : Nat) : Prop := ∀ m, maxSize = some m → length ≤ m

end Verif.WebSocket
