/-!
# Set information

`__ldms_set_info_set`, `ldms_set_info_set`, `ldms_set_info_unset`, `ldms_set_info_get`,
`ldms_set_info_traverse` (`ldms/src/core/ldms.c`), and the exchange of the information between a
producer and its consumers: `__copy_set_info_to_lookup_msg`, `__get_set_info_sz`,
`__process_lookup_set_info`, `__process_dir_set_info` (`ldms/src/core/ldms_xprt.c`).

Strings are lists of bytes without the terminating NUL.  All functions hold the lock of the set, so
they are atomic.
-/

namespace Verif.SetInfo

/-- a C string without its NUL -/
abbrev Str := List Nat

/-- `struct ldms_set_info_list`: key-value pairs, head first -/
abbrev Info := List (Str × Str)

/-- `__ldms_set_info_find` (`ldms.c:3600-3608`): the value of the first pair with the key -/
def find : Info → Str → Option Str
  | [], _ => none
  | (k, v) :: l, key => if key = k then some v else find l key

/-- change the value of the first pair with the key -/
def replace : Info → Str → Str → Info
  | [], _, _ => []
  | (k, v) :: l, key, value => if key = k then (k, value) :: l else (k, v) :: replace l key value

/-- `LIST_REMOVE` of the first pair with the key -/
def remove : Info → Str → Info
  | [], _ => []
  | (k, v) :: l, key => if key = k then l else (k, v) :: remove l key

/-- which memory allocations succeed: pair and key, value -/
structure Mem where
  pair : Bool
  value : Bool
  deriving DecidableEq, Repr

/-- result of `__ldms_set_info_set`: 0, -1, ENOMEM -/
inductive Res where
  | changed | same | enomem
  deriving DecidableEq, Repr

/-- `__ldms_set_info_set` (`ldms.c:3540-3577`).  When the value cannot be allocated, the pair is
removed, also when it was there before. -/
def infoSet (l : Info) (key value : Str) (m : Mem) : Info × Res :=
  match find l key with
  | some v =>
    if value = v then (l, .same)
    else if m.value then (replace l key value, .changed)
    else (remove l key, .enomem)
  | none =>
    if m.pair then
      if m.value then ((key, value) :: l, .changed) else (l, .enomem)
    else (l, .enomem)

/-- a set: local and remote information, whether it is published, and the number of directory
updates sent (`__ldms_dir_upd_set`) -/
structure St where
  loc : Info
  rem : Info
  published : Bool
  upds : Nat
  deriving DecidableEq, Repr

/-- return codes -/
inductive Rc where
  | ok | einval | enomem
  deriving DecidableEq, Repr

/-- `if (s->flags & LDMS_SET_F_PUBLISHED) __ldms_dir_upd_set(s)` -/
def notify (s : St) : St := if s.published then { s with upds := s.upds + 1 } else s

/-- `ldms_set_info_set` (`ldms.c:3579-3603`); NULL is `none` -/
def set (s : St) (key value : Option Str) (m : Mem) : St × Rc :=
  match key, value with
  | none, _ => (s, .einval)
  | _, none => (s, .einval)
  | some k, some v =>
    match infoSet s.loc k v m with
    | (l, .enomem) => ({ s with loc := l }, .enomem)
    | (l, .same) => ({ s with loc := l }, .ok)
    | (l, .changed) => (notify { s with loc := l }, .ok)

/-- `ldms_set_info_unset` (`ldms.c:3624-3637`) -/
def unset (s : St) (key : Str) : St :=
  match find s.loc key with
  | none => s
  | some _ => notify { s with loc := remove s.loc key }

/-- `ldms_set_info_get` (`ldms.c:3639-3657`), when memory for the copy is available -/
def get (s : St) (key : Str) : Option Str :=
  match find s.loc key with
  | some v => some v
  | none => find s.rem key

/-- the loop over the received pairs (`ldms_xprt.c:1783-1812`, `2588-2606`), stopping when out of
memory; the flag says whether something changed -/
def recvPairs : Info → List (Str × Str) → List Mem → Bool → Info × Bool × Bool
  | l, [], _, d => (l, d, true)
  | l, (k, v) :: ps, ms, d =>
    let m := ms.headD ⟨true, true⟩
    match infoSet l k v m with
    | (l', .enomem) => (l', d, false)
    | (l', .same) => recvPairs l' ps ms.tail d
    | (l', .changed) => recvPairs l' ps ms.tail true

/-- the keys received -/
def keyIn (ps : List (Str × Str)) (k : Str) : Bool := ps.any (fun p => p.1 = k)

/-- drop the pairs that were not received (`ldms_xprt.c:1815-1830`, `2607-2618`) -/
def dropStale (l : Info) (ps : List (Str × Str)) : Info := l.filter (fun p => keyIn ps p.1)

/-- `__process_dir_set_info` (`ldms_xprt.c:1774-1842`) for a set that exists; `upd` says whether the
message is a directory update -/
def peerDir (s : St) (upd : Bool) (ps : List (Str × Str)) (ms : List Mem) : St × Rc :=
  match recvPairs s.rem ps ms false with
  | (l, _, false) => ({ s with rem := l }, .enomem)
  | (l, d, true) =>
    let l' := dropStale l ps
    let d' := d || decide (l'.length ≠ l.length)
    let s' := { s with rem := l' }
    (if upd && d' then notify s' else s', .ok)

/-- `__process_lookup_set_info` (`ldms_xprt.c:2577-2625`): the stale pairs are dropped only if nothing
else changed -/
def peerLookup (s : St) (ps : List (Str × Str)) (ms : List Mem) : St × Rc :=
  match recvPairs s.rem ps ms false with
  | (l, _, false) => ({ s with rem := l }, .enomem)
  | (l, true, true) => (notify { s with rem := l }, .ok)
  | (l, false, true) =>
    let l' := dropStale l ps
    let s' := { s with rem := l' }
    (if l'.length ≠ l.length then notify s' else s', .ok)

/-- flag of `ldms_set_info_traverse` -/
inductive Flag where
  | localInfo | remoteInfo | other
  deriving DecidableEq, Repr

/-- `ldms_set_info_traverse` (`ldms.c:3669-3696`): the pairs given to the callback, which stops the
traversal by returning nonzero, and the return code.  `cb` gives the return code of the callback. -/
def traverse (s : St) (f : Flag) (cb : Str × Str → Nat) : List (Str × Str) × Nat :=
  let go := fun (l : Info) =>
    let rec go : Info → List (Str × Str) × Nat
      | [] => ([], 0)
      | p :: l => if cb p ≠ 0 then ([p], cb p) else ((p :: (go l).1), (go l).2)
    go l
  match f with
  | .localInfo => go s.loc
  | .remoteInfo => go s.rem
  | .other => ([], 22)

/-- the pairs sent to a consumer: the local ones, then the remote ones that are not overridden
(`__copy_set_info_to_lookup_msg`, `ldms_xprt.c:1157-1190`; the same in the JSON of the directory,
`ldms.c:462-492`) -/
def sent (s : St) : List (Str × Str) :=
  s.loc ++ s.rem.filter (fun p => (find s.loc p.1).isNone)

/-! ## the lookup message -/

/-- overwrite bytes of the message; `none` = outside of it -/
def writeAt (buf : List Nat) (pos : Nat) (bs : List Nat) : Option (List Nat) :=
  if pos + bs.length ≤ buf.length then some (buf.take pos ++ bs ++ buf.drop (pos + bs.length)) else none

/-- write a `struct ldms_name` at `pos` and return the position after it, as the code computes it:
`str->len = strlen(s) + 1` in 8 bits, `strcpy`, `&str->name[str->len]` -/
def putName (buf : List Nat) (pos : Nat) (s : Str) : Option (List Nat × Nat) :=
  let len := (s.length + 1) % 256
  match writeAt buf pos [len] with
  | none => none
  | some b1 =>
    match writeAt b1 (pos + 1) (s ++ [0]) with
    | none => none
    | some b2 => some (b2, pos + 1 + len)

/-- write keys and values -/
def putPairs : List Nat → Nat → List (Str × Str) → Option (List Nat × Nat)
  | buf, pos, [] => some (buf, pos)
  | buf, pos, (k, v) :: ps =>
    match putName buf pos k with
    | none => none
    | some (b1, p1) =>
      match putName b1 p1 v with
      | none => none
      | some (b2, p2) => putPairs b2 p2 ps

/-- bytes allocated for the pairs: `__get_set_info_sz` (`ldms_xprt.c:1200-1218`), one length byte
for each string and the terminating one (`ldms_xprt.c:1348-1355`) -/
def msgLen (ps : List (Str × Str)) : Nat :=
  (ps.map fun p => p.1.length + p.2.length + 2).sum + (ps.length * 2 + 1)

/-- the part of the lookup message with the pairs (`ldms_xprt.c:1140-1191`, `1346-1361`); the schema
and instance name before it are left out -/
def encode (ps : List (Str × Str)) : Option (List Nat) :=
  match putPairs (List.replicate (msgLen ps) 0) 0 ps with
  | none => none
  | some (b, p) => writeAt b p [0]

/-- read a C string at the start of the bytes; `none` = no NUL -/
def cstr : List Nat → Option Str
  | [] => none
  | 0 :: _ => some []
  | b :: bs =>
    match cstr bs with
    | none => none
    | some r => some (b :: r)

/-- the pairs read from the message by `__process_lookup_set_info` (`ldms_xprt.c:2585-2605`);
`none` = reads outside the message -/
def decode : Nat → List Nat → Option (List (Str × Str))
  | 0, _ => none
  | f + 1, buf =>
    match buf with
    | [] => none
    | klen :: b1 =>
      if klen = 0 then some []
      else
        match cstr b1 with
        | none => none
        | some k =>
          match b1.drop klen with
          | [] => none
          | vlen :: b2 =>
            match cstr b2 with
            | none => none
            | some v =>
              match decode f (b2.drop vlen) with
              | none => none
              | some ps => some ((k, v) :: ps)

end Verif.SetInfo
