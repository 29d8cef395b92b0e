import Verif.Common.Bytes

/-!
# ldmsd request attributes

The attribute list of a request or response: encoding (`add_attr_from_attr_str`), look-up
(`ldmsd_req_attr_get_by_id`), byte-order conversion (`ldmsd_hton_req_msg`,
`ldmsd_ntoh_req_msg`) and validation of received messages (`validate_ldmsd_req`).

Memory is a list of bytes (naturals below 256).  The host is little-endian (x86_64); the network
order is big-endian.  Reading outside the buffer is undefined behaviour: `none`.
-/

namespace Verif.ReqAttr

open Verif

/-- `sizeof(struct ldmsd_req_hdr_s)` (`ldms/src/ldmsd/ldmsd_request.h:259-269`) -/
def hdrSz : Nat := 24

/-- the little-endian value of some bytes -/
def leVal (l : List Nat) : Nat := beVal l.reverse

/-- read a `uint32_t` at an offset; `none` outside the buffer -/
def rd4 (l : List Nat) (o : Nat) : Option (List Nat) :=
  if o + 4 ≤ l.length then some ((l.drop o).take 4) else none

/-- the discriminator which ends the list (zero in either byte order) -/
def zero4 : List Nat := [0, 0, 0, 0]

/-! ## encoding -/

/-- one attribute as given to `add_attr_from_attr_str` -/
structure Attr where
  id : Nat
  /-- the value with its terminating NUL; empty for a keyword -/
  val : List Nat
  deriving DecidableEq, Repr

/-- the bytes `add_attr_from_attr_str` appends for an attribute
(`ldmsd_request_util.c:390-406`; `struct ldmsd_req_attr_s` is `discrim`, `attr_id`, `attr_len`,
`attr_value`) -/
def encAttr (a : Attr) : List Nat :=
  leBytes 4 1 ++ (leBytes 4 a.id ++ (leBytes 4 a.val.length ++ a.val))

/-- the request being built: allocated size and the bytes after the header -/
structure Req where
  cap : Nat
  body : List Nat := []

/-- The loop `while (req_sz - req->rec_len < attr_sz)` doubling the buffer
(`ldmsd_request_util.c:385-394`). `none`: still running. -/
def growLoop (used need : Nat) : Nat → Nat → Option Nat
  | 0, _ => none
  | f + 1, cap => if cap - used < need then growLoop used need f (2 * cap) else some cap

/-- `add_attr_from_attr_str` (`ldmsd_request_util.c:359-420`) with the attribute id already
looked up; `none` for the terminator.  The result is `none` if the doubling loop has not ended or
if the copy would run past the end of the buffer. -/
def addAttr (fuel : Nat) (r : Req) (a : Option Attr) : Option Req :=
  let bytes := match a with
    | some a => encAttr a
    | none => zero4
  match growLoop (hdrSz + r.body.length) bytes.length fuel r.cap with
  | none => none
  | some cap =>
    if hdrSz + r.body.length + bytes.length ≤ cap then some ⟨cap, r.body ++ bytes⟩ else none

/-- a request with these attributes and the terminator, as `ldmsd_parse_config_str` builds it
(`ldmsd_request_util.c:919-966`) -/
def addAll (fuel : Nat) : Req → List Attr → Option Req
  | r, [] => addAttr fuel r none
  | r, a :: as =>
    match addAttr fuel r (some a) with
    | none => none
    | some r' => addAll fuel r' as

/-! ## look-up -/

/-- `ldmsd_req_attr_get_by_id` (`ldmsd_request_util.c:1042-1052`) from the attribute at the start
of `s`, in host byte order.  The value bytes of the attribute found are returned; the caller's
read of them is part of the model, so an attribute reaching past the buffer is `none`. -/
def find (id : Nat) : Nat → List Nat → Option (Option (List Nat))
  | 0, _ => none
  | f + 1, s =>
    match rd4 s 0 with
    | none => none
    | some d =>
      if d = zero4 then some none
      else
        match rd4 s 4, rd4 s 8 with
        | some i, some l =>
          if leVal i = id then
            if 12 + leVal l ≤ s.length then some (some ((s.drop 12).take (leVal l))) else none
          else find id f (s.drop (12 + leVal l))
        | _, _ => none

/-- `ldmsd_req_attr_get_by_id` on a whole request -/
def getById (m : List Nat) (id : Nat) : Option (Option (List Nat)) :=
  find id (m.length + 1) (m.drop hdrSz)

/-! ## byte order -/

/-- The attribute loops of `ldmsd_hton_req_msg` (`ldmsd_request_util.c:1146-1160`) and
`ldmsd_ntoh_req_msg` (`:1113-1127`): the three words of each attribute are byte-swapped; the
distance to the next attribute is the attribute length in host order, which `lenOf` reads from the
length bytes before the swap. -/
def swap (lenOf : List Nat → Nat) : Nat → List Nat → Option (List Nat)
  | 0, _ => none
  | f + 1, s =>
    match rd4 s 0 with
    | none => none
    | some d =>
      if d = zero4 then some s
      else
        match rd4 s 4, rd4 s 8 with
        | some i, some l =>
          if 12 + lenOf l ≤ s.length then
            match swap lenOf f (s.drop (12 + lenOf l)) with
            | none => none
            | some r =>
              some (d.reverse ++ (i.reverse ++ (l.reverse ++ ((s.drop 12).take (lenOf l) ++ r))))
          else none
        | _, _ => none

/-- byte-swap the six header words (`ldmsd_request_util.c:1101-1109`, `:1129-1137`) -/
def swapHdr (h : List Nat) : List Nat :=
  (h.take 4).reverse ++ (((h.drop 4).take 4).reverse ++ (((h.drop 8).take 4).reverse ++
    (((h.drop 12).take 4).reverse ++ (((h.drop 16).take 4).reverse ++
      ((h.drop 20).take 4).reverse))))

/-- `ldmsd_hton_req_msg` (`ldmsd_request_util.c:1146-1160`) -/
def hton (m : List Nat) : Option (List Nat) :=
  if leVal ((m.drop 20).take 4) = hdrSz then some (swapHdr (m.take hdrSz) ++ m.drop hdrSz)
  else
    match swap leVal (m.length + 1) (m.drop hdrSz) with
    | none => none
    | some r => some (swapHdr (m.take hdrSz) ++ r)

/-- `ldmsd_ntoh_req_msg` (`ldmsd_request_util.c:1113-1127`) -/
def ntoh (m : List Nat) : Option (List Nat) :=
  if beVal ((m.drop 20).take 4) = hdrSz then some (swapHdr (m.take hdrSz) ++ m.drop hdrSz)
  else
    match swap beVal (m.length + 1) (m.drop hdrSz) with
    | none => none
    | some r => some (swapHdr (m.take hdrSz) ++ r)

/-! ## validation -/

/-- The loop of `validate_ldmsd_req` (`ldms/src/ldmsd/ldmsd_request.c:954-972`): `pos` is where the
pointer `attr` is, `off` the 32-bit offset variable, `m` the memory of the message, `rl` its
`rec_len`. `none`: a read outside the buffer (or fuel exhausted). -/
def validLoop (m : List Nat) (rl : Nat) : Nat → Nat → Nat → Option Bool
  | 0, _, _ => none
  | f + 1, off, pos =>
    match rd4 m pos with
    | none => none
    | some d =>
      if d = zero4 then some true
      else
        match rd4 m (pos + 8) with
        | none => none
        | some l =>
          let len := beVal l
          let off' := (off + 12 + len) % 2 ^ 32
          if off' + 4 > rl then some false
          else
            match (if len = 0 then some 0 else m[pos + 12 + (len - 1)]?) with
            | none => none
            | some last =>
              if last ≠ 0 then some false
              else
                match rd4 m (pos + 12 + len) with
                | none => none
                | some d' =>
                  if d' ≠ zero4 ∧ off' + 12 + 4 > rl then some false
                  else validLoop m rl f off' (pos + 12 + len)

/-- `validate_ldmsd_req` (`ldms/src/ldmsd/ldmsd_request.c:934-973`) -/
def validate (m : List Nat) : Option Bool :=
  let rl := beVal ((m.drop 20).take 4)
  if rl = hdrSz + 4 then
    match rd4 m hdrSz with
    | none => none
    | some d => some (decide (d = zero4))
  else if rl < hdrSz + 12 then some false
  else validLoop m rl (m.length + 1) hdrSz hdrSz

end Verif.ReqAttr
