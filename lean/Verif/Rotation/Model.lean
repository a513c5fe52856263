/-!
# Rotation of host infos

Model of `HostInfoBasket.iter_next_rotation`, `scarletio/http_client/host_info_basket.py`.  Its body runs when the
first host info is asked for; nothing is awaited in front of the index being stored.
-/

namespace Verif.Rotation

/-- `HostInfoBasket`, without its expiration. -/
structure Basket (α : Type) where
  hostInfos : List α
  start : Nat := 0

variable {α : Type}

/-- `iter_next_rotation`, host_info_basket.py lines 114-135: what is yielded, and the basket after it.
`islice(x, a, len(x))` is `x.drop a`, and `islice(x, 0, a)` is `x.take a`. -/
def next (b : Basket α) : List α × Basket α :=
  let new := b.start + 1
  let new := if new = b.hostInfos.length then 0 else new
  (b.hostInfos.drop b.start ++ b.hostInfos.take b.start, { b with start := new })

/-- The first `n` rotations of a basket. -/
def rotations : Nat → Basket α → List (List α)
  | 0, _ => []
  | n + 1, b => (next b).1 :: rotations n (next b).2

end Verif.Rotation
