import Verif.Common.Bytes

/-!
# ldmsd request/response messages: record buffer and gatherer

`ldmsd_msg_buf_send` (sender), the splitting loop of `ldmsd_parse_config_str` (sender) and
`ldmsd_msg_gather` (receiver) of `ldms/src/ldmsd/ldmsd_request_util.c`.

Bytes are naturals.  Records are byte lists with the 24-byte big-endian header of
`struct ldmsd_req_hdr_s` in front.
-/

namespace Verif.MsgBuf

open Verif

/-- `sizeof(struct ldmsd_req_hdr_s)`: six packed `uint32_t`
(`ldms/src/ldmsd/ldmsd_request.h:259-269`) -/
def hdrSz : Nat := 24

/-- `LDMSD_RECORD_MARKER` (`ldmsd_request.h:250`) -/
def marker : Nat := 0xffffffff

/-- the fields of a message which are the same in all its records -/
structure Msg where
  /-- `type` -/
  type : Nat
  /-- `msg_no` -/
  msgNo : Nat
  /-- `req_id` / `rsp_err` -/
  code : Nat

/-- `flags`: `LDMSD_REQ_SOM_F` = 1, `LDMSD_REQ_EOM_F` = 2 (`ldmsd_request.h:252-253`) -/
def flagBits (som eom : Bool) : Nat := (if som then 1 else 0) + (if eom then 2 else 0)

/-- one record handed to `send_fn` -/
structure Rec where
  som : Bool
  eom : Bool
  payload : List Nat
  deriving DecidableEq, Repr

/-- The bytes of a record on the wire: the header filled at `ldmsd_request_util.c:1232-1238`, in
network byte order after `ldmsd_hton_req_hdr` (`:1135-1143`), and the payload. -/
def encode (m : Msg) (r : Rec) : List Nat :=
  beBytes 4 marker ++ (beBytes 4 m.type ++ (beBytes 4 (flagBits r.som r.eom) ++
    (beBytes 4 m.msgNo ++ (beBytes 4 m.code ++
      (beBytes 4 (hdrSz + r.payload.length) ++ r.payload)))))

/-- `struct ldmsd_msg_buf` of a sender: `len`, the payload collected so far (`off` is
`hdrSz + data.length`) and `flags` -/
structure Buf where
  len : Nat
  data : List Nat := []
  som : Bool := false
  eom : Bool := false
  deriving DecidableEq, Repr

/-- The `do … while (data_len)` loop of `ldmsd_msg_buf_send` (`ldmsd_request_util.c:1213-1252`).
`eomArg` says whether `msg_flags` has `LDMSD_REQ_EOM_F`.  `none`: the fuel ran out, the loop is
still running.  Simplification: `send_fn` succeeds. -/
def sendLoop (eomArg : Bool) : Nat → Buf → List Nat → Option (Buf × List Rec)
  | 0, _, _ => none
  | f + 1, b, data =>
    let n := min data.length (b.len - (hdrSz + b.data.length))
    let b1 : Buf := { b with data := b.data ++ data.take n }
    let rest := data.drop n
    if n = 0 ∨ (rest = [] ∧ eomArg = true) then
      let eom := if rest ≠ [] then false else if eomArg then true else b.eom
      let r : Rec := ⟨b.som, eom, b1.data⟩
      let b2 : Buf := { len := b.len }
      if rest = [] then some (b2, [r])
      else
        match sendLoop eomArg f b2 rest with
        | none => none
        | some (b', rs) => some (b', r :: rs)
    else if rest = [] then some (b1, [])
    else sendLoop eomArg f b1 rest

/-- one call of `ldmsd_msg_buf_send` -/
structure Append where
  som : Bool
  eom : Bool
  data : List Nat

/-- `ldmsd_msg_buf_send` (`ldmsd_request_util.c:1198-1254`) -/
def send (fuel : Nat) (b : Buf) (a : Append) : Option (Buf × List Rec) :=
  sendLoop a.eom fuel
    { len := b.len, data := if a.som then [] else b.data, som := b.som || a.som,
      eom := b.eom || a.eom } a.data

/-- a sequence of calls and all the records they emit -/
def sendAll (fuel : Nat) : Buf → List Append → Option (Buf × List Rec)
  | b, [] => some (b, [])
  | b, a :: as =>
    match send fuel b a with
    | none => none
    | some (b', rs) =>
      match sendAll fuel b' as with
      | none => none
      | some (b'', rs') => some (b'', rs ++ rs')

/-- The splitting loop of `ldmsd_parse_config_str` (`ldmsd_request_util.c:975-1018`): the encoded
attribute list is cut into records no longer than `xprt_max_msg`. -/
def split (maxMsg : Nat) : Nat → Bool → List Nat → Option (List Rec)
  | 0, _, _ => none
  | f + 1, som, data =>
    let n := if maxMsg - hdrSz ≥ data.length then data.length else maxMsg - hdrSz
    let rest := data.drop n
    let r : Rec := ⟨som, rest.isEmpty, data.take n⟩
    if rest.isEmpty then some [r]
    else
      match split maxMsg f false rest with
      | none => none
      | some rs => some (r :: rs)

/-- `struct ldmsd_msg_buf` of a receiver: the allocated size and the bytes gathered -/
structure GBuf where
  cap : Nat
  bytes : List Nat := []
  deriving DecidableEq, Repr

/-- overwrite `rec_len` (bytes 20..23) of the gathered message -/
def setRecLen (bs : List Nat) (n : Nat) : List Nat :=
  bs.take 20 ++ (beBytes 4 n ++ bs.drop 24)

/-- `ntohl(req->rec_len)` -/
def recLen (req : List Nat) : Nat := beVal ((req.drop 20).take 4)

/-- `ntohl(req->flags)` -/
def recFlags (req : List Nat) : Nat := beVal ((req.drop 8).take 4)

/-- the bytes `ldmsd_msg_gather` copies: the whole first record, the payload of the others
(`ldmsd_request_util.c:1258-1268`) -/
def src (req : List Nat) : List Nat :=
  if recFlags req % 2 = 1 then req.take (recLen req)
  else (req.drop hdrSz).take (recLen req - hdrSz)

/-- the size of the buffer after the `realloc` (`ldmsd_request_util.c:1269-1276`) -/
def grow (cap used n : Nat) : Nat := if cap - used < n then 2 * cap + n else cap

/-- `ldmsd_msg_gather` (`ldmsd_request_util.c:1256-1283`).  The Boolean says that the call
returned 0 (message complete) rather than `EBUSY`.  `none`: the copy would run past the end of
the allocated buffer.  Simplification: `realloc` succeeds. -/
def gather (g : GBuf) (req : List Nat) : Option (GBuf × Bool) :=
  if g.bytes.length + (src req).length ≤ grow g.cap g.bytes.length (src req).length then
    some (⟨grow g.cap g.bytes.length (src req).length,
      setRecLen (g.bytes ++ src req) (g.bytes ++ src req).length⟩,
      decide (recFlags req / 2 % 2 = 1))
  else none

/-- gather a sequence of records: the final buffer and the answer of each call -/
def gatherAll : GBuf → List (List Nat) → Option (GBuf × List Bool)
  | g, [] => some (g, [])
  | g, r :: rs =>
    match gather g r with
    | none => none
    | some (g', c) =>
      match gatherAll g' rs with
      | none => none
      | some (g'', cs) => some (g'', c :: cs)

end Verif.MsgBuf
