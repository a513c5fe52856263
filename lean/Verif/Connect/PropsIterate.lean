import Verif.Connect.Model
import Verif.Rotation.Props

/-!
# C237: which addresses are tried for a host
-/

namespace Verif.Connect

theorem rotation_perm (b : Rotation.Basket HostInfo) : (Rotation.next b).1.Perm b.hostInfos := by
  have : b.hostInfos.Perm ((Rotation.next b).1) := by
    show b.hostInfos.Perm (b.hostInfos.drop b.start ++ b.hostInfos.take b.start)
    refine List.Perm.trans ?_ List.perm_append_comm
    rw [List.take_append_drop]
  exact this.symm

/-- C237: an address given as the host is the only one. -/
theorem C237_ip (host : Text) (port family : Nat) (cached : Option Cached) (answer : Answer) :
    ∃ i : HostInfo, iterate true host port family cached answer = ([i], none) ∧ i.host = host ∧ i.hostName = host ∧ i.port = port ∧
      i.family = family :=
  ⟨_, rfl, rfl, rfl, rfl, rfl⟩

/-- C237: while what is known of a host is not expired, exactly that is tried, each address once, whatever a lookup would give. -/
theorem C237_fresh (host : Text) (port family : Nat) (b : Rotation.Basket HostInfo) (answer : Answer) :
    (iterate false host port family (some ⟨b, false⟩) answer).1.Perm b.hostInfos ∧
      (iterate false host port family (some ⟨b, false⟩) answer).2 = none :=
  ⟨rotation_perm b, rfl⟩

/-- C237: of a host of which nothing is known what was found is tried, each address once. -/
theorem C237_unknown (host : Text) (port family : Nat) (b : Rotation.Basket HostInfo) :
    (iterate false host port family none (.found b)).1.Perm b.hostInfos ∧ (iterate false host port family none (.found b)).2 = none := by
  refine ⟨?_, rfl⟩
  have : (iterate false host port family none (.found b)).1 = (Rotation.next b).1 := by
    simp [iterate]
  rw [this]
  exact rotation_perm b

/-- C237: if what is known is expired, then it is tried nevertheless, and after it what was found and was not known; each address is tried once. -/
theorem C237_expired (host : Text) (port family : Nat) (old new : Rotation.Basket HostInfo) (ho : old.hostInfos.Nodup) (hn : new.hostInfos.Nodup) :
    ∃ a b, iterate false host port family (some ⟨old, true⟩) (.found new) = (a ++ b, none) ∧ a.Perm old.hostInfos ∧ (a ++ b).Nodup ∧
      ∀ i, i ∈ b ↔ i ∈ new.hostInfos ∧ i ∉ old.hostInfos := by
  refine ⟨_, _, rfl, rotation_perm old, ?_, ?_⟩
  · refine List.nodup_append.2 ⟨(rotation_perm old).nodup_iff.2 ho, ((rotation_perm new).nodup_iff.2 hn).sublist List.filter_sublist, ?_⟩
    intro i hi j hj e
    subst e
    have h1 : i ∈ old.hostInfos := (rotation_perm old).mem_iff.1 hi
    have h2 := (List.mem_filter.1 hj).2
    simp [h1] at h2
  · intro i
    rw [List.mem_filter, (rotation_perm new).mem_iff]
    simp

/-- C237: a lookup which failed is told, but not before all of what is known was tried. -/
theorem C237_failed (host : Text) (port family : Nat) (cached : Option Cached) (hc : ∀ c, cached = some c → c.expired = true) (answer : Answer)
    (hf : ∀ b, answer ≠ .found b) :
    (iterate false host port family cached answer).2.isSome ∧
      (iterate false host port family cached answer).1.Perm ((cached.map (·.basket.hostInfos)).getD []) := by
  rcases cached with _ | ⟨b, ex⟩
  · cases answer with
    | found b => exact absurd rfl (hf b)
    | failed e => exact ⟨rfl, .refl _⟩
    | cancelled => exact ⟨rfl, .refl _⟩
  · have h : ex = true := hc _ rfl
    subst h
    cases answer with
    | found b => exact absurd rfl (hf b)
    | failed e => exact ⟨rfl, rotation_perm b⟩
    | cancelled => exact ⟨rfl, rotation_perm b⟩

/-- C237 is violated: what is known of a host expires, but it is tried before what is found anew, however old it is and whatever was found: if
none of the addresses known is one of the host any more, the first address tried is still one of them. -/
theorem C237_expired_first_violated (host : Text) (port family : Nat) (old new : Rotation.Basket HostInfo) (ho : old.start < old.hostInfos.length)
    (hd : ∀ i ∈ old.hostInfos, i ∉ new.hostInfos) :
    ∃ i, (iterate false host port family (some ⟨old, true⟩) (.found new)).1.head? = some i ∧ i ∈ old.hostInfos ∧ i ∉ new.hostInfos := by
  have h : (Rotation.next old).1 ≠ [] := by
    intro e
    have := (rotation_perm old).length_eq
    rw [e] at this
    simp at this
    omega
  obtain ⟨i, l, e⟩ := List.exists_cons_of_ne_nil h
  have hi : i ∈ old.hostInfos := (rotation_perm old).mem_iff.1 (by rw [e]; simp)
  refine ⟨i, ?_, hi, hd i hi⟩
  simp [iterate, e]

def infoA : HostInfo := ⟨2, 4, ['a'], ['h'], 80, 6⟩
def infoB : HostInfo := ⟨2, 4, ['b'], ['h'], 80, 6⟩
def infoC : HostInfo := ⟨10, 4, ['c'], ['h'], 80, 6⟩

example : (iterate false ['h'] 80 0 (some ⟨⟨[infoA, infoB], 1⟩, true⟩) (.found ⟨[infoC, infoA], 0⟩)) = ([infoB, infoA, infoC], none) := by
  decide

example : fromAddressInfo ['h'] ⟨2, 6, ['a'], 80⟩ = infoA := by decide

end Verif.Connect
