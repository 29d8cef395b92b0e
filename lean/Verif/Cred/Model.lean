/-!
# Credential check of stream publishing

`__publish_cred_check` and `ldms_stream_publish` of `ldms/src/core/ldms_stream.c`.
-/

namespace Verif.Cred

/-- `EPERM` -/
def EPERM : Nat := 1

/-- what the system reports about the process -/
structure Proc where
  ruid : Nat
  euid : Nat
  suid : Nat
  rgid : Nat
  egid : Nat
  sgid : Nat
  /-- supplementary groups; `none` if `getgroups` fails -/
  groups : Option (List Nat)
  /-- `capget`: an errno (never 0) or the CAP_SETUID and CAP_SETGID bits -/
  caps : Except Nat (Bool × Bool)

/-- the process-wide cache filled by `__get_gids` (`ldms_stream.c:574-611`): the group list is read
once and kept.  Returns the list used and the new cache. -/
def getGids (cache : Option (List Nat)) (p : Proc) : Option (List Nat) × Option (List Nat) :=
  match cache with
  | some g => (some g, some g)
  | none => (p.groups, p.groups)

/-- the gid part of `__publish_cred_check` (`ldms_stream.c:740-766`, from label `check_gid`);
`caps` is the result of the capability check if it was made already -/
def checkGid (cache : Option (List Nat)) (p : Proc) (gid : Nat) (caps : Option (Bool × Bool)) :
    Nat × Option (List Nat) :=
  if gid = p.rgid ∨ gid = p.egid ∨ gid = p.sgid then (0, cache)
  else
    let (gids, cache') := getGids cache p
    if (gids.getD []).contains gid then (0, cache')
    else
      match caps with
      | some (_, g) => (if g then 0 else EPERM, cache')
      | none =>
        match p.caps with
        | .error e => (e, cache')
        | .ok (_, g) => (if g then 0 else EPERM, cache')

/-- `__publish_cred_check` (`ldms_stream.c:716-768`).  Failure of `getresuid`/`getresgid` is not
modelled (they fail only for bad pointers).  Returns the error code and the new group cache. -/
def credCheck (cache : Option (List Nat)) (p : Proc) (uid gid : Nat) : Nat × Option (List Nat) :=
  if uid = p.ruid ∨ uid = p.euid ∨ uid = p.suid then checkGid cache p gid none
  else
    match p.caps with
    | .error e => (e, cache)
    | .ok (u, g) =>
      if u then checkGid cache p gid (some (u, g)) else (EPERM, cache)

/-- the credential `ldms_stream_publish` (`ldms_stream.c:770-806`) sends: an error, or the uid/gid -/
def publishCred (cache : Option (List Nat)) (p : Proc) (cred : Option (Nat × Nat)) :
    Except Nat (Nat × Nat) × Option (List Nat) :=
  match cred with
  | none => (.ok (p.euid, p.egid), cache)
  | some (u, g) =>
    match credCheck cache p u g with
    | (0, c) => (.ok (u, g), c)
    | (e, c) => (.error e, c)

/-- a history of publishes, the process' identity being possibly different at each -/
def publishes : Option (List Nat) → List (Proc × Option (Nat × Nat)) → List (Except Nat (Nat × Nat))
  | _, [] => []
  | cache, (p, c) :: rest =>
    (publishCred cache p c).1 :: publishes (publishCred cache p c).2 rest

end Verif.Cred
