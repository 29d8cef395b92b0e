import Verif.Timestamp.Model

/-!
# Updating an array-backed set from a remote producer

`__ldms_remote_update`, `do_read_data`, `__handle_update_data`, `__ldms_data_ts_cmp` of
`ldms/src/core/ldms_xprt.c`, against the producer's ring written by `ldms_transaction_begin` and
`ldms_transaction_end` (`ldms/src/core/ldms.c`).

A read of a range of buffers (`zap_read`) is atomic, at the moment of its completion; the producer may
run between any two reads.  Metadata is up to date (`meta_gn` equal), so only the data path is taken.
Errors of the transport are left out.  The contents of a buffer are represented by the number of the
transaction that wrote them and whether it is finished.
-/

namespace Verif.RingUpd

open Verif.Timestamp (Ts)

/-- a buffer: the header fields used here and what it contains -/
structure Rb where
  ts : Ts
  /-- `curr_idx` in the header -/
  cidx : Nat
  /-- number of the transaction whose values it holds, 0 = none yet -/
  snap : Nat
  /-- `trans.flags == LDMS_TRANSACTION_END` -/
  done : Bool
  deriving DecidableEq, Repr

/-- `__ldms_data_ts_cmp(a, b) < 0` (`ldms_xprt.c:2347-2359`) -/
def tsLt (a b : Ts) : Bool := a.sec < b.sec || (a.sec == b.sec && a.usec < b.usec)

/-- producer and consumer of one set -/
structure St where
  n : Nat
  /-- the producer's buffers -/
  rem : Nat → Rb
  /-- the producer's `curr_idx` -/
  pcurr : Nat
  /-- number of transactions begun -/
  count : Nat
  /-- the consumer's buffers -/
  loc : Nat → Rb
  /-- the consumer's `curr_idx`; `s->data` is that buffer -/
  curr : Nat
  /-- range of the read in progress -/
  pend : Option (Nat × Nat)
  /-- update callbacks with new data, oldest first: transaction number and whether it is finished -/
  log : List (Nat × Bool)

/-- `ldms_transaction_begin` at the producer (`ldms.c:3408-3456`, `n > 1`) -/
def prodBegin (s : St) (now : Ts) : St :=
  let c := (s.pcurr + 1) % s.n
  { s with
    pcurr := c
    count := s.count + 1
    rem := fun i => if i = c then ⟨now, c, s.count + 1, false⟩ else { s.rem i with cidx := c } }

/-- `ldms_transaction_end` at the producer (`ldms.c:3458-3481`) -/
def prodEnd (s : St) (now : Ts) : St :=
  { s with rem := fun i => if i = s.pcurr then { s.rem i with ts := now, done := true } else s.rem i }

/-- the range to read (`ldms_xprt.c:1653-1660`) -/
def range (s : St) : Nat × Nat :=
  let from_ := (s.curr + 1) % s.n
  let cur := (s.loc s.curr).cidx
  let next := (cur + 1) % s.n
  let to := if next = from_ then next else if cur < from_ then s.n - 1 else cur
  (from_, to)

/-- `ldms_xprt_update`: start an update if none is in progress -/
def start (s : St) : St :=
  match s.pend with
  | some _ => s
  | none => { s with pend := some (range s) }

/-- the loop of `__handle_update_data` (`ldms_xprt.c:2402-2429`) over the indices read: the new
`curr_idx`, the indices for which the callback is called, and whether there is more -/
def loop (loc : Nat → Rb) (to cidx : Nat) : List Nat → Nat → Bool → Nat × List Nat × Bool
  | [], curr, more => (curr, [], more)
  | i :: is, curr, more =>
    if i ≠ curr ∧ tsLt (loc curr).ts (loc i).ts = false then (curr, [], more)
    else
      let r := loop loc to cidx is i (!(decide (i = to) && decide (i = cidx)))
      (r.1, i :: r.2.1, r.2.2)

/-- the consumer's buffers after reading `a..b` from the producer (`do_read_data`) -/
def fetch (s : St) (a b : Nat) : Nat → Rb := fun i => if a ≤ i ∧ i ≤ b then s.rem i else s.loc i

/-- all headers updated (`ldms_xprt.c:2395-2400`) -/
def setCidx (loc : Nat → Rb) (c : Nat) : Nat → Rb := fun i => { loc i with cidx := c }

/-- the state after the loop -/
def deliver (s : St) (loc : Nat → Rb) (r : Nat × List Nat × Bool) : St :=
  { s with
    loc := loc
    curr := r.1
    pend := none
    log := s.log ++ r.2.1.map fun i => ((loc i).snap, (loc i).done) }

/-- `__handle_update_data` (`ldms_xprt.c:2361-2448`) with the buffers `a..b` just read -/
def handle (s : St) (loc : Nat → Rb) (a b : Nat) : St :=
  if a ≠ s.curr ∧ tsLt (loc s.curr).ts (loc a).ts = false then
    -- no new data
    { s with loc := loc, pend := none }
  else
    let c := (loc a).cidx
    let r := loop (setCidx loc c) b c (List.range' a (b + 1 - a)) s.curr false
    let s1 := deliver s (setCidx loc c) r
    if r.2.2 then { s1 with pend := some (range s1) } else s1

/-- completion of a read -/
def complete (s : St) : St :=
  match s.pend with
  | none => s
  | some (a, b) => handle s (fetch s a b) a b

/-- a set that has just been looked up, and its new producer -/
def init (n : Nat) : St where
  n := n
  rem := fun _ => ⟨⟨0, 0⟩, n - 1, 0, false⟩
  pcurr := n - 1
  count := 0
  loc := fun _ => ⟨⟨0, 0⟩, n - 1, 0, false⟩
  curr := n - 1
  pend := none
  log := []

end Verif.RingUpd
