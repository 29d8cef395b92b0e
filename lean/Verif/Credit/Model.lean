/-!
# Send credits and rate credits of a rail endpoint (ldms/src/core/ldms_rail.c)

Part 1: the compare-and-swap loops of `__credit_acquire` and `__credit_release` run by any number of
threads, one atomic memory access per step.
Part 2: one endpoint and its peer: sends, deliveries and credit returns.
Part 3: rate credits, called one after the other and interleaved.
-/

namespace Verif.Credit

/-- `__RAIL_UNLIMITED` is the all-ones 64-bit value (ldms.h:646) -/
def unlimited : Nat := 2 ^ 64 - 1

/-! ## Part 1 -/

/-- what a finished call reports -/
inductive Out where
  /-- `__credit_acquire` returned 0 for `n` bytes -/
  | granted (n : Nat)
  /-- `__credit_acquire` returned ENOBUFS for `n` bytes -/
  | refused (n : Nat)
  /-- `__credit_release` of `n` bytes took effect -/
  | released (n : Nat)
  deriving Repr, DecidableEq

/-- The shared credit word and the calls in progress.  `acq t = some (n, v0)`: thread `t` is about to
compare-and-swap `v0` with `v0 - n`.  An entry `(t, n)` of `rel`: thread `t` is about to add `n`.  `log` is what the
calls have reported so far, newest first. -/
structure St where
  credit : Nat
  acq : Nat → Option (Nat × Nat)
  rel : List (Nat × Nat)
  log : List Out

/-- one atomic step of thread `t` -/
inductive Ev where
  /-- call `__credit_acquire(n)` and load the credit (910-916) -/
  | acqLoad (t n : Nat)
  /-- the compare-and-swap (921) and, if it failed, the retry with the value it read (923-925) -/
  | acqCas (t : Nat)
  /-- call `__credit_release(n)` and load the credit (930-936) -/
  | relLoad (t n : Nat)
  /-- the atomic add (937) -/
  | relAdd (t : Nat)
  deriving Repr, DecidableEq

/-- a point update of a per-thread table -/
def set {α : Type} (f : Nat → α) (t : Nat) (a : α) : Nat → α := fun u => if u = t then a else f u

/-- After reading `v0`: refuse, or go on to the compare-and-swap (ldms_rail.c:917-920). -/
def acqCheck (s : St) (t n v0 : Nat) : St :=
  if v0 < n then { s with acq := set s.acq t none, log := .refused n :: s.log }
  else { s with acq := set s.acq t (some (n, v0)) }

/-- One atomic step (ldms_rail.c:910-938).  `none`: the thread is not at that point.  The strong
compare-and-swap (weak = 0) fails only on a different value.  64-bit overflow of the add is not modelled;
`credit_conservation` shows it does not happen. -/
def step (s : St) : Ev → Option St
  | .acqLoad t n =>
    if s.acq t = none ∧ s.rel.find? (·.1 = t) = none then
      if s.credit = unlimited then some { s with log := .granted n :: s.log }
      else some (acqCheck s t n s.credit)
    else none
  | .acqCas t =>
    match s.acq t with
    | none => none
    | some (n, v0) =>
      if s.credit = v0 then
        some { s with credit := v0 - n, acq := set s.acq t none, log := .granted n :: s.log }
      else some (acqCheck s t n s.credit)
  | .relLoad t n =>
    if s.acq t = none ∧ s.rel.find? (·.1 = t) = none then
      if s.credit = unlimited then some { s with log := .released n :: s.log }
      else some { s with rel := (t, n) :: s.rel }
    else none
  | .relAdd t =>
    match s.rel.find? (·.1 = t) with
    | none => none
    | some p => some { s with credit := s.credit + p.2, rel := s.rel.erase p, log := .released p.2 :: s.log }

/-- an endpoint whose peer announced the limit `L` (ldms_rail.c:700, 1301) -/
def init (L : Nat) : St := ⟨L, fun _ => none, [], []⟩

/-! ## Part 2 -/

/-- An endpoint and its peer.  `wire`: lengths of messages sent and not yet processed by the peer's
application; `back`: credit messages on their way back. -/
structure Link where
  credit : Nat
  wire : List Nat
  back : List Nat
  deriving Repr, DecidableEq

/-- `__credit_acquire` without interference (ldms_rail.c:910-926) -/
def acquire (c n : Nat) : Option Nat :=
  if c = unlimited then some c else if c < n then none else some (c - n)

/-- `__credit_release` without interference (ldms_rail.c:930-938) -/
def release (c n : Nat) : Nat := if c = unlimited then c else c + n

/-- what can happen on a link -/
inductive LEv where
  /-- ldms_xprt_send of `n` bytes; whether the rate limit allows it and whether the transport takes it are
  decided by the environment -/
  | send (n : Nat) (rateOk sendOk : Bool)
  /-- the peer's application has processed the oldest message and its credit is returned -/
  | recv
  /-- the oldest credit message reaches the sender -/
  | deposit
  deriving Repr, DecidableEq

/-- Result of `__rail_send` (ldms_rail.c:1012-1039), done under the rail's mutex; the endpoint is
connected.  Returns the new link and whether the send succeeded. -/
def send (l : Link) (n : Nat) (rateOk sendOk : Bool) : Link × Bool :=
  match acquire l.credit n with
  | none => (l, false)
  | some c =>
    if !rateOk then ({ l with credit := release c n }, false)
    else if !sendOk then ({ l with credit := release c n }, false)
    else ({ l with credit := c, wire := l.wire ++ [n] }, true)

/-- One event.  `recv`: `__rail_cb` for RECV (ldms_rail.c:495-517) calls the application and returns
`data_len` credits when the receiver has a limit (otherwise the sender's credit is unlimited anyway); the
message length fits the 32-bit credit field.  `deposit`: `__rail_process_send_credit` (1315-1324). -/
def lstep (l : Link) : LEv → Link
  | .send n r s => (send l n r s).1
  | .recv => match l.wire with
    | [] => l
    | n :: w => { l with wire := w, back := l.back ++ [n] }
  | .deposit => match l.back with
    | [] => l
    | n :: b => { l with back := b, credit := release l.credit n }

/-- run events on a fresh link with limit `L` -/
def lrun (L : Nat) (es : List LEv) : Link := es.foldl lstep ⟨L, [], []⟩

/-- `__rep_publish` (ldms_stream.c:200-245) when the transport refuses the message: the send credit that
was acquired is not given back -/
def publishFail (l : Link) (n : Nat) : Link :=
  match acquire l.credit n with
  | none => l
  | some c => { l with credit := c }

/-! ## Part 3 -/

/-- `struct ldms_rail_rate_credit_s` (ldms_rail.h:110-114): limit, credit left, second of the last reset -/
structure Rate where
  rate : Nat
  credit : Nat
  sec : Nat
  deriving Repr, DecidableEq

/-- where a thread is inside `__rate_credit_acquire(n)` (ldms_rail.c:940-980) -/
inductive RPc where
  | idle
  /-- at `again` (950) -/
  | again (n : Nat)
  /-- loaded the second (951) -/
  | gotSec (n sec : Nat)
  /-- loaded the credit (952), about to read the clock -/
  | gotCredit (n sec v0 : Nat)
  /-- about to reset the credit (958) -/
  | reset (n sec v0 now : Nat)
  /-- about to store the new second (963) -/
  | setSec (n sec now : Nat)
  /-- about to take the credit (974) -/
  | take (n v0 now : Nat)
  deriving Repr, DecidableEq

/-- result of one step: still running, granted (at which clock second), or refused -/
inductive RRes where
  | running (pc : RPc)
  | granted (n now : Nat)
  | refused (n : Nat)
  deriving Repr, DecidableEq

/-- One atomic step of `__rate_credit_acquire` with the clock at second `now` (ldms_rail.c:948-980).
`clock_gettime` does not fail. -/
def rstep (c : Rate) (now : Nat) : RPc → Rate × RRes
  | .idle => (c, .running .idle)
  | .again n => if c.rate = unlimited then (c, .granted n now) else (c, .running (.gotSec n c.sec))
  | .gotSec n sec => (c, .running (.gotCredit n sec c.credit))
  | .gotCredit n sec v0 =>
    if sec < now then (c, .running (.reset n sec v0 now))
    else if v0 < n then (c, .refused n) else (c, .running (.take n v0 now))
  | .reset n sec v0 now' =>
    if c.credit = v0 then ({ c with credit := c.rate }, .running (.setSec n sec now'))
    else (c, .running (.again n))
  | .setSec n sec now' =>
    if c.sec = sec then
      if c.rate < n then ({ c with sec := now' }, .refused n)
      else ({ c with sec := now' }, .running (.take n c.rate now'))
    else (c, .running (.again n))
  | .take n v0 now' =>
    if c.credit = v0 then ({ c with credit := v0 - n }, .granted n now')
    else (c, .running (.again n))

/-- several threads: `pcs` gives where each is, `grants` the grants made so far (bytes, second) -/
structure RSys where
  c : Rate
  pcs : List RPc
  grants : List (Nat × Nat)
  deriving Repr, DecidableEq

/-- thread `t` makes one step while the clock is at second `now` -/
def rsys (s : RSys) (e : Nat × Nat) : RSys :=
  match s.pcs[e.1]? with
  | none => s
  | some pc =>
    let r := rstep s.c e.2 pc
    match r.2 with
    | .running pc' => { s with c := r.1, pcs := s.pcs.set e.1 pc' }
    | .granted n now => { c := r.1, pcs := s.pcs.set e.1 .idle, grants := (n, now) :: s.grants }
    | .refused _ => { s with c := r.1, pcs := s.pcs.set e.1 .idle }

/-- a thread running alone until its call returns; at most 6 steps are needed -/
def ralone (c : Rate) (now : Nat) : Nat → RPc → Rate × RRes
  | 0, pc => (c, .running pc)
  | k + 1, pc =>
    match rstep c now pc with
    | (c', .running pc') => ralone c' now k pc'
    | r => r

/-- `__rate_credit_acquire` run without interference -/
def racquire (c : Rate) (now n : Nat) : Rate × RRes := ralone c now 6 (.again n)

/-- `__rate_credit_release` (ldms_rail.c:982-995) -/
def rrelease (c : Rate) (now n : Nat) : Rate :=
  if c.rate = unlimited then c
  else if c.sec = now then { c with credit := c.credit + n } else c

end Verif.Credit
