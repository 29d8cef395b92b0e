import Verif.ZapRdma.Model

/-!
# Specification vocabulary for remote memory access

Phrased with the maps the application holds, not with the key tree.
-/

namespace Verif.ZapRdma

/-- the remote operations a map can grant (zap.h:662-666) -/
inductive Kind where
  | read
  | write

/-- the access word of `zap_map` grants the operation: bit 1 is read, bit 0 is write -/
def Grants (acc : Nat) : Kind → Prop
  | .read => acc / 2 % 2 = 1
  | .write => acc % 2 = 1

instance (acc : Nat) (k : Kind) : Decidable (Grants acc k) := by
  cases k <;> unfold Grants <;> infer_instance

/-- `[p, p+n)` lies in a region that is mapped now, was shared under `key`, and grants `k`. -/
def Exposed (s : St) (key p n : Nat) (k : Kind) : Prop :=
  ∃ id m, s.maps id = some m ∧ m.key = key ∧ key ≠ 0 ∧ m.addr ≤ p ∧ p + n ≤ m.addr + m.len ∧
    Grants m.acc k

/-- no live map was shared under `key` -/
def Unknown (s : St) (key : Nat) : Prop :=
  ∀ id m, s.maps id = some m → m.key = key → key = 0

/-- What the application may do: map real memory under a fresh name, use only live maps.  The peer's
requests are 32-bit keys and lengths with 64-bit addresses, otherwise arbitrary. -/
def LegalOp (s : St) : Op → Prop
  | .map id addr len _ => s.maps id = none ∧ addr + len < 2 ^ 64
  | .get id | .unmap id | .share _ id => s.maps id ≠ none
  | .poke _ _ => True
  | .readReq _ key src len => key < 2 ^ 32 ∧ src < 2 ^ 64 ∧ len < 2 ^ 32
  | .writeReq _ key dst len _ => key < 2 ^ 32 ∧ dst < 2 ^ 64 ∧ len < 2 ^ 32

/-- a history in which every operation is legal when it is made -/
def Legal : St → List Op → Prop
  | _, [] => True
  | s, op :: ops => LegalOp s op ∧ ∀ s' r, step s op = some (s', r) → Legal s' ops

/-- number of `zap_share` calls -/
def shares : List Op → Nat
  | [] => 0
  | .share _ _ :: ops => shares ops + 1
  | _ :: ops => shares ops

/-- The requests whose handling is defined: the region does not run over the end of the address
space, and a write request carries the bytes it announces. -/
def WellFormed : Op → Prop
  | .readReq _ _ src len => src + len < 2 ^ 64
  | .writeReq _ _ dst len data => dst + len < 2 ^ 64 ∧ len ≤ data.length
  | _ => True

/-- every operation of the history is well formed -/
def AllWellFormed (ops : List Op) : Prop := ∀ op ∈ ops, WellFormed op

/-- the processes reachable by a legal history with fewer than 2^31 - 2 calls of `zap_share` -/
def Reach (s : St) : Prop :=
  ∃ mem ops rs, Legal (St.init mem) ops ∧ shares ops < 2 ^ 31 - 2 ∧ run (St.init mem) ops = some (s, rs)

end Verif.ZapRdma
