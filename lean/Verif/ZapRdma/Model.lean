import Verif.Rbt.Model

/-!
# Remote memory access of the socket transport

Models `lib/src/zap/sock/zap_sock.c` (map keys, `zap_share`, read and write requests of a peer),
`lib/src/zap/zap.c` (`zap_map`, `zap_map_get`, `zap_unmap`) and `z_map_access_validate` of
`lib/src/zap/zap_priv.h`.  `none` is undefined behaviour: an access outside the address space, a
read past the received message, or the use of a freed map.

Simplifications: every operation that takes `z_key_tree_mutex` is one step; `zap_share` is modelled
on a connected endpoint; memory allocation does not fail; a read response is captured at the time of
the request (the code sends from the region later, and says in a comment that the data may be
garbage when the region is unmapped meanwhile).
-/

namespace Verif.ZapRdma

open Rbt (Rbt)

/-- bytes are natural numbers; nothing here does arithmetic on them -/
abbrev Byte := Nat

/-- `struct zap_map`, zap_priv.h:374-383: the fields used by the socket transport on a local map.
`key` is `mr[ZAP_SOCK]` (`SOCK_MAP_KEY_GET`, zap_sock.h:95), 0 before the map is shared. -/
structure ZMap where
  addr : Nat
  len : Nat
  acc : Nat
  ref : Nat
  key : Nat
deriving DecidableEq

/-- `struct z_sock_key`, zap_sock.h:90-93: a tree node, its key and the map it stands for. -/
structure KeyEnt where
  key : Nat
  map : Nat
deriving DecidableEq

/-- The process: its live maps (by identity), `z_last_key`, `z_key_tree` and its memory. -/
structure St where
  maps : Nat → Option ZMap
  lastKey : Nat
  tree : Rbt KeyEnt
  mem : Nat → Byte

/-- Before any `zap_map`: zap_sock.c:130-135 (`z_last_key = 1`, empty tree). -/
def St.init (mem : Nat → Byte) : St := ⟨fun _ => none, 1, Rbt.init, mem⟩

/-- `z_rbn_cmp`, zap_sock.c:140-145: the `uint32_t` difference converted to `int`. -/
def zcmp (a b : Nat) : Int :=
  let d : Nat := (a + 2 ^ 32 - b % 2 ^ 32) % 2 ^ 32
  if d < 2 ^ 31 then (d : Int) else (d : Int) - 2 ^ 32

/-- `ZAP_ACCESS_WRITE`, zap.h:664. -/
def accWrite : Nat := 1
/-- `ZAP_ACCESS_READ`, zap.h:665. -/
def accRead : Nat := 2

/-- result codes of the validation functions, with the status a peer is sent for them
(zap_sock.c:644-660, 798-813) -/
inductive Status where
  /-- 0 -/
  | ok
  /-- `ERANGE`, `ZAP_ERR_REMOTE_LEN` -/
  | remoteLen
  /-- `EACCES`, `ZAP_ERR_REMOTE_PERMISSION` -/
  | remotePermission
  /-- `ENOENT`, `ZAP_ERR_REMOTE_MAP` -/
  | remoteMap
deriving DecidableEq

/-- `z_map_access_validate`, zap_priv.h:418-426.  Pointer arithmetic is modulo 2^64. -/
def mapValidate (m : ZMap) (p sz acc : Nat) : Status :=
  if p < m.addr ∨ (m.addr + m.len) % 2 ^ 64 < (p + sz) % 2 ^ 64 then .remoteLen
  else if m.acc &&& acc ≠ acc then .remotePermission
  else .ok

/-- `z_sock_key_find`, zap_sock.c:187-193. -/
def keyFind (s : St) (k : Nat) : Option KeyEnt := Rbt.find zcmp KeyEnt.key k s.tree.root

/-- `z_sock_map_key_access_validate`, zap_sock.c:218-225.  `none`: the tree node points at a map
that has been freed. -/
def keyValidate (s : St) (k p sz acc : Nat) : Option Status :=
  match keyFind s k with
  | none => some .remoteMap
  | some e =>
    match s.maps e.map with
    | none => none
    | some m => some (mapValidate m p sz acc)

/-- update one entry of the map table -/
def setMap (s : St) (id : Nat) (m : Option ZMap) : Nat → Option ZMap :=
  fun i => if i = id then m else s.maps i

/-- `z_key_alloc`, zap_sock.c:159-184. -/
def keyAlloc (s : St) (id : Nat) (m : ZMap) : Option (St × Nat) :=
  if m.key ≠ 0 then some (s, m.key)
  else
    let k1 := (s.lastKey + 1) % 2 ^ 32
    let k := if k1 = 0 then (k1 + 1) % 2 ^ 32 else k1
    match Rbt.ins zcmp KeyEnt.key s.tree ⟨k, id⟩ with
    | none => none
    | some t => some ({ s with lastKey := k, tree := t, maps := setMap s id (some { m with key := k }) }, k)

/-- `z_sock_key_delete`, zap_sock.c:195-206. -/
def keyDelete (s : St) (k : Nat) : Option St :=
  match keyFind s k with
  | none => some s
  | some e =>
    match Rbt.del s.tree e with
    | none => none
    | some t => some { s with tree := t }

/-- the bytes of `[p, p + n)` -/
def memRead (mem : Nat → Byte) (p n : Nat) : List Byte := (List.range n).map (fun i => mem (p + i))

/-- `memcpy(dst, data, n)` with `data` at least `n` bytes long -/
def memWrite (mem : Nat → Byte) (dst n : Nat) (data : List Byte) : Nat → Byte :=
  fun a => if dst ≤ a ∧ a < dst + n then data.getD (a - dst) 0 else mem a

/-- What the application of this process and its peers do. -/
inductive Op where
  /-- `zap_map` of `len` bytes at `addr`; the returned map is called `id` -/
  | map (id addr len acc : Nat)
  /-- `zap_map_get` -/
  | get (id : Nat)
  /-- `zap_unmap` -/
  | unmap (id : Nat)
  /-- `zap_share` with the peer of a connected endpoint -/
  | share (peer id : Nat)
  /-- the application stores a byte -/
  | poke (a : Nat) (v : Byte)
  /-- a read request of a peer: key, address and length are whatever the message says -/
  | readReq (peer key src len : Nat)
  /-- a write request of a peer; `data` are the bytes received after the fixed part -/
  | writeReq (peer key dst len : Nat) (data : List Byte)

/-- What the other side sees. -/
inductive Resp where
  | none
  /-- the rendezvous message announces this key -/
  | shared (key : Nat)
  /-- the response to a read or write request -/
  | reply (st : Status) (data : List Byte)
deriving DecidableEq

/-- `zap_map` (zap.c:618-635), `zap_map_get` (612-616), `zap_unmap` (637-655) with
`z_sock_unmap` (zap_sock.c:2076-2086), `z_sock_share` (2088-2126), `process_sep_msg_read_req`
(620-669) and `process_sep_msg_write_req` (775-819).  `none`: undefined behaviour, including an
access that reaches the last byte of the address space or runs over it (never mapped). -/
def step (s : St) : Op → Option (St × Resp)
  | .map id addr len acc =>
    some ({ s with maps := setMap s id (some ⟨addr, len, acc, 1, 0⟩) }, .none)
  | .get id =>
    match s.maps id with
    | none => none
    | some m => some ({ s with maps := setMap s id (some { m with ref := m.ref + 1 }) }, .none)
  | .unmap id =>
    match s.maps id with
    | none => none
    | some m =>
      if m.ref = 0 then none
      else if m.ref - 1 ≠ 0 then
        some ({ s with maps := setMap s id (some { m with ref := m.ref - 1 }) }, .none)
      else if m.key = 0 then some ({ s with maps := setMap s id none }, .none)
      else
        match keyDelete s m.key with
        | none => none
        | some s' => some ({ s' with maps := setMap s' id none }, .none)
  | .share _ id =>
    match s.maps id with
    | none => none
    | some m =>
      match keyAlloc s id m with
      | none => none
      | some (s', k) => some (s', .shared k)
  | .poke a v => some ({ s with mem := fun x => if x = a then v else s.mem x }, .none)
  | .readReq _ key src len =>
    match keyValidate s key src len accRead with
    | none => none
    | some .ok =>
      if src + len < 2 ^ 64 then some (s, .reply .ok (memRead s.mem src len)) else none
    | some st => some (s, .reply st [])
  | .writeReq _ key dst len data =>
    match keyValidate s key dst len accWrite with
    | none => none
    | some .ok =>
      if dst + len < 2 ^ 64 ∧ len ≤ data.length then
        some ({ s with mem := memWrite s.mem dst len data }, .reply .ok [])
      else none
    | some st => some (s, .reply st [])

/-- a history; `none` once something undefined happened -/
def run (s : St) : List Op → Option (St × List Resp)
  | [] => some (s, [])
  | op :: ops =>
    match step s op with
    | none => none
    | some (s', r) =>
      match run s' ops with
      | none => none
      | some (s'', rs) => some (s'', r :: rs)

end Verif.ZapRdma
