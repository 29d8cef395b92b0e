/-!
# Timestamps

`ldms_difftimestamp` and the duration computed by `ldms_transaction_end`
(`ldms/src/core/ldms.c`).  32-bit words are natural numbers below `2 ^ 32`; arithmetic on them is
modulo `2 ^ 32`.
-/

namespace Verif.Timestamp

/-- `2 ^ 32` -/
def w32 : Nat := 4294967296

/-- `struct ldms_timestamp` (`ldms/src/core/ldms_core.h`) -/
structure Ts where
  sec : Nat
  usec : Nat
  deriving DecidableEq, Repr

/-- subtraction of `uint32_t` -/
def sub32 (a b : Nat) : Nat := (a + (w32 - b)) % w32

/-- addition of `uint32_t` -/
def add32 (a b : Nat) : Nat := (a + b) % w32

/-- `ldms_difftimestamp` (`ldms.c:3503-3521`), for non-NULL arguments.  The result is
`(double)ds + 1.0e-6*dms`; it is given here in whole microseconds, before rounding to `double`. -/
def diff (after before : Ts) : Nat :=
  let borrow := before.usec > after.usec
  let dms := if borrow then sub32 (add32 1000000 after.usec) before.usec
    else sub32 after.usec before.usec
  let t2sec := if borrow then sub32 after.sec 1 else after.sec
  let ds := sub32 t2sec before.sec
  if ds > t2sec then 0 else ds * 1000000 + dms

/-- the duration stored by `ldms_transaction_end` (`ldms.c:3466-3473`): `ts` is the time of
`ldms_transaction_begin`, `tv` the time of day now.  `(int32_t)usec < 0` is `usec ≥ 2 ^ 31`. -/
def duration (tv ts : Ts) : Ts :=
  let sec := sub32 (tv.sec % w32) ts.sec
  let usec := sub32 (tv.usec % w32) ts.usec
  if usec ≥ 2147483648 then ⟨sub32 sec 1, add32 usec 1000000⟩ else ⟨sec, usec⟩

end Verif.Timestamp
