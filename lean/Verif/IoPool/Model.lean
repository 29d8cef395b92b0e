/-!
# Assignment of endpoints to io threads

`__io_thread_create`, `__zap_least_busy_thread`, `zap_io_thread_ep_assign`, `zap_io_thread_ep_remove`
of `lib/src/zap/zap.c`, one pool, endpoints that are not listening.

Each function runs under `z->_io_mutex`, `zap_io_thread_ep_remove` under the mutex of the thread; the
model takes them as atomic.  Whether the transport's `io_thread_create` and `io_thread_ep_assign`
succeed is an input.
-/

namespace Verif.IoPool

/-- a thread: `_n_ep` and `_ep_list`, newest first -/
structure Thr where
  id : Nat
  nEp : Nat
  eps : List Nat
  deriving DecidableEq, Repr

/-- a pool: `_io_threads`, newest first, `n`, and the next thread id -/
structure Pool where
  threads : List Thr
  n : Nat
  nextId : Nat
  deriving DecidableEq, Repr

/-- the first thread with no endpoint (`zap.c:808-815`) -/
def findIdle (l : List Thr) : Option Nat := (l.find? fun t => t.nEp == 0).map (·.id)

/-- the loop that finds the smallest `_n_ep` (`zap.c:822-829`) -/
def minLoop : List Thr → Option Nat → Nat → Option Nat
  | [], t, _ => t
  | x :: xs, t, m => if x.nEp < m then minLoop xs (some x.id) x.nEp else minLoop xs t m

/-- `LIST_INSERT_HEAD(&t->_ep_list, ep); t->_n_ep++` (`zap.c:831-839`) -/
def addEp (l : List Thr) (id ep : Nat) : List Thr :=
  l.map fun t => if t.id = id then { t with nEp := t.nEp + 1, eps := ep :: t.eps } else t

/-- `LIST_REMOVE(ep, _entry); t->_n_ep--` (`zap.c:899-903`, `918-930`) -/
def delEp (l : List Thr) (id ep : Nat) : List Thr :=
  l.map fun t => if t.id = id then { t with nEp := t.nEp - 1, eps := t.eps.erase ep } else t

/-- `__zap_least_busy_thread` (`zap.c:798-841`) with `__io_thread_create` (`zap.c:767-785`): the new pool
and the thread chosen -/
def leastBusy (max : Nat) (createOk : Bool) (p : Pool) (ep : Nat) : Pool × Option Nat :=
  match findIdle p.threads with
  | some id => ({ p with threads := addEp p.threads id ep }, some id)
  | none =>
    if p.n < max ∧ createOk = true then
      let ts := ⟨p.nextId, 0, []⟩ :: p.threads
      (⟨addEp ts p.nextId ep, p.n + 1, p.nextId + 1⟩, some p.nextId)
    else
      match minLoop p.threads none 0x7FFFFFFF with
      | some id => ({ p with threads := addEp p.threads id ep }, some id)
      | none => (p, none)

/-- `zap_io_thread_ep_assign` (`zap.c:872-908`): the pool and the thread of the endpoint, if any -/
def assign (max : Nat) (createOk assignOk : Bool) (p : Pool) (ep : Nat) : Pool × Option Nat :=
  match leastBusy max createOk p ep with
  | (p1, none) => (p1, none)
  | (p1, some id) => if assignOk then (p1, some id) else ({ p1 with threads := delEp p1.threads id ep }, none)

/-- `zap_io_thread_ep_remove` of an endpoint on thread `id` (`zap.c:918-930`) -/
def remove (p : Pool) (id ep : Nat) : Pool := { p with threads := delEp p.threads id ep }

def init : Pool := ⟨[], 0, 0⟩

end Verif.IoPool
