import Verif.Common.Bytes

/-!
# Stream messages on the wire (ldms/src/core/ldms_stream.c)

Publisher side `__rep_publish`/`__part_send` (lines 124-245) and receiver side `__process_stream_msg`
(1081-1199).  Bytes are numbers below 256.
-/

namespace Verif.StreamFrag

/-- a message as the application publishes it, with the envelope fields sent along.  `src` is the 20-byte
`struct ldms_addr` of the originator (ldms.h:1108), already resolved. -/
structure Msg where
  src : List Nat
  gn : Nat
  type : Nat
  uid : Nat
  gid : Nat
  perm : Nat
  name : List Nat
  data : List Nat
  deriving Repr, DecidableEq

/-- what a C message can be: field widths, no NUL in the name, byte values -/
structure Msg.Ok (m : Msg) : Prop where
  src : m.src.length = 20
  gn : m.gn < 256 ^ 8
  type : m.type < 256 ^ 4
  uid : m.uid < 256 ^ 4
  gid : m.gid < 256 ^ 4
  perm : m.perm < 256 ^ 4
  len : m.name.length + 1 + m.data.length < 256 ^ 4
  nul : 0 ∉ m.name

/-- `struct ldms_stream_full_msg_s` filled in by `__rep_publish` (ldms_stream.c:224-239, ldms_stream.h:130-138,
natural alignment): src at 0, 4 bytes of padding, msg_gn at 24, msg_len at 32, stream_type at 36, uid at 40,
gid at 44, perm at 48, 4 unused bytes.  `junk` supplies the 8 bytes that are never set. -/
def header (junk : List Nat) (m : Msg) : List Nat :=
  m.src ++ junk.take 4 ++ beBytes 8 m.gn ++ beBytes 4 (m.name.length + 1 + m.data.length) ++
    beBytes 4 m.type ++ beBytes 4 m.uid ++ beBytes 4 m.gid ++ beBytes 4 m.perm ++ (junk.drop 4).take 4

/-- sizeof(struct ldms_stream_full_msg_s) -/
def hdrLen : Nat := 56

/-- one partial message on the wire (`struct ldms_stream_part_msg_param`, ldms_xprt.h:205-213) -/
structure Frag where
  src : List Nat
  gn : Nat
  more : Bool
  first : Bool
  part : List Nat
  deriving Repr, DecidableEq

/-- `__part_send` (ldms_stream.c:124-198).  `ps` are the remaining parameters (the current one first), `amax`
is the room for data in one request (zmax minus the two headers), `fill` tells whether control is at
`fill_req` (a request has just been flushed) or at `next_param`.  In the branch where a parameter does not
fit, `a_len` is set to 0 before `data += a_len; data_len -= a_len`, so the parameter stays as it was.
`none`: not finished within `fuel` rounds.  Sends do not fail here. -/
def partSend (amax : Nat) (src : List Nat) (gn : Nat) :
    Nat → Bool → Bool → List Nat → List (List Nat) → Option (List Frag)
  | 0, _, _, _, _ => none
  | _ + 1, first, _, buf, [] => some [⟨src, gn, false, first, buf⟩]
  | fuel + 1, first, fill, buf, d :: ps =>
    let a := amax - buf.length
    if fill = false ∧ a = 0 then
      (partSend amax src gn fuel false true [] (d :: ps)).map (⟨src, gn, true, first, buf⟩ :: ·)
    else if d.length ≤ a then partSend amax src gn fuel first false (buf ++ d) ps
    else (partSend amax src gn fuel false true [] (d :: ps)).map (⟨src, gn, true, first, buf ++ d.take a⟩ :: ·)

/-- `__rep_publish` once the credits are there (ldms_stream.c:240-244) -/
def publish (amax : Nat) (junk : List Nat) (fuel : Nat) (m : Msg) : Option (List Frag) :=
  partSend amax m.src m.gn fuel true false [] [header junk m, m.name ++ [0], m.data]

/-- a partly received message (`struct __stream_buf_s`, ldms_stream.c:1066-1075) -/
structure Sbuf where
  src : List Nat
  pad : List Nat
  gn : Nat
  full : Nat
  buf : List Nat
  deriving Repr, DecidableEq

/-- The 32 bytes of the tree key `struct __sbuf_key_s` (ldms_stream.c:1035-1038, natural alignment): src, 4
bytes of padding (never set: whatever malloc returned), msg_gn.  Little-endian host. -/
def Sbuf.key (b : Sbuf) : List Nat := b.src ++ b.pad ++ leBytes 8 b.gn

/-- The 32 bytes it is compared with (ldms_stream.c:1129): the request's `stream_part`, declared under
`#pragma pack(4)` (ldms_xprt.h:66, 205-213): src, msg_gn with no padding, then the word of bit fields
(`more` bit 0, `first` bit 1; reserved bits zero). -/
def Frag.key (f : Frag) : List Nat :=
  f.src ++ leBytes 8 f.gn ++ [(if f.more then 1 else 0) + (if f.first then 2 else 0), 0, 0, 0]

/-- the fields of a reassembled message (ldms_stream.c:1167-1192); the name ends at the first NUL -/
def parse (src : List Nat) (b : List Nat) : Msg :=
  let body := b.drop hdrLen
  let name := body.takeWhile (· ≠ 0)
  { src := src, gn := beVal ((b.drop 24).take 8), type := beVal ((b.drop 36).take 4),
    uid := beVal ((b.drop 40).take 4), gid := beVal ((b.drop 44).take 4), perm := beVal ((b.drop 48).take 4),
    name := name, data := (body.drop (name.length + 1)).take (beVal ((b.drop 32).take 4) - (name.length + 1)) }

/-- `collect:` part (ldms_stream.c:1154-1198): append the fragment to buffer `b` of table `t` (which does not
contain `b`). Result: the new table and the message delivered, if any; `none`: an assertion fails. -/
def collect (t : List Sbuf) (b : Sbuf) (f : Frag) : Option (List Sbuf × List Msg) :=
  if f.part.length + b.buf.length > b.full then none
  else
    let b' := { b with buf := b.buf ++ f.part }
    if f.more then some (b' :: t, [])
    else if b'.buf.length ≠ b.full then none
    else some (t, [parse f.src b'.buf])

/-- `__process_stream_msg` (ldms_stream.c:1081-1199).  `pad` is the garbage in the padding of a freshly
allocated buffer.  The tree of buffers is modelled as a list searched for a key with equal bytes.  Reading
the header of a first fragment shorter than the header is undefined (`none`). -/
def receive (pad : List Nat) (t : List Sbuf) (f : Frag) : Option (List Sbuf × List Msg) :=
  match t.find? (fun b => b.key = f.key) with
  | some b => collect (t.erase b) b f
  | none =>
    if f.first = false then none
    else if f.part.length < hdrLen then none
    else
      collect t ⟨f.src, pad, f.gn, beVal ((f.part.drop 32).take 4) + hdrLen, []⟩ f

/-- receive several fragments -/
def receiveAll (pad : List Nat) : List Sbuf → List Frag → Option (List Sbuf × List Msg)
  | t, [] => some (t, [])
  | t, f :: fs =>
    match receive pad t f with
    | none => none
    | some (t', ms) => (receiveAll pad t' fs).map (fun r => (r.1, ms ++ r.2))

end Verif.StreamFrag
