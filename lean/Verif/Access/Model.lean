/-!
# Access checks

`ovis_access_check` and `__uid_gid_check` of `lib/src/ovis_util/util.c`, and the permission gate of
`ldmsd_handle_request` (`ldms/src/ldmsd/ldmsd_request.c`).
-/

namespace Verif.Access

/-- what the system knows about a user: nothing, or the list of group ids `getgrouplist` gives -/
abbrev Groups := Option (List Nat)

/-- `__uid_gid_check(uid, gid) == 0` (`util.c:815-866`): the user must exist (`getpwuid_r`), must have
at most `n = 128` groups (`getgrouplist` returns -1 otherwise, `ENOBUFS`), and one must be `gid`.
Allocation failure is not modelled. -/
def uidGidCheck (groups : Groups) (gid : Nat) : Bool :=
  match groups with
  | none => false
  | some gs => if 128 < gs.length then false else gs.contains gid

/-- `ovis_access_check` (`util.c:868-894`): `true` = 0 (granted), `false` = `EACCES`.
`groups` are those of `auid`. -/
def check (groups : Groups) (auid agid acc ouid ogid perm : Nat) : Bool :=
  let macc := acc &&& perm
  if auid = 0 then true
  else if 7 &&& macc ≠ 0 then true
  else if 448 &&& macc ≠ 0 ∧ auid = ouid then true
  else if 56 &&& macc ≠ 0 ∧ (agid = ogid ∨ uidGidCheck groups ogid = true) then true
  else false

/-- the outcome of the gate in `ldmsd_handle_request` -/
inductive Gate where
  | unimplemented | ebusy | eperm | run
  deriving DecidableEq, Repr

/-- `ldmsd_handle_request` (`ldmsd_request.c:975-1022`) up to the call of the handler.
`flags` gives the flag of each request id that has a handler; `inband` is `none` for a
configuration file, else the peer's uid, gid and groups, with the daemon's own uid and gid.
`req` is the 32-bit request id, `n` the number of entries of the table. -/
def gate (flags : Nat → Option Nat) (n mask : Nat)
    (inband : Option (Nat × Nat × Groups × Nat × Nat)) (req : Nat) : Gate :=
  if 2147483648 ≤ req ∨ n ≤ req then .unimplemented
  else
    match flags req with
    | none => .unimplemented
    | some flag =>
      match inband with
      | none => .run
      | some (ruid, rgid, groups, luid, lgid) =>
        if mask &&& flag = 0 then .ebusy
        else if check groups ruid rgid 73 luid lgid (flag &&& 73) then .run
        else .eperm

end Verif.Access
