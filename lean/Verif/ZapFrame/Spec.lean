import Verif.ZapFrame.Model

/-!
# What it means for messages to be sent and received
-/

namespace Verif.ZapFrame

/-- A message an endpoint can build: its fields fit their types. -/
def Pkt.Proper : Pkt → Prop
  | .rendezvous key acc addr len _ => key < 2 ^ 32 ∧ acc < 2 ^ 32 ∧ addr < 2 ^ 64 ∧ len < 2 ^ 32
  | .readReq key src len => key < 2 ^ 32 ∧ src < 2 ^ 64 ∧ len < 2 ^ 32
  | .readResp status _ => status < 2 ^ 16
  | .writeReq key dst _ => key < 2 ^ 32 ∧ dst < 2 ^ 64
  | .writeResp status => status < 2 ^ 16
  | .badConnect => False
  | .unknown _ => False
  | _ => True

/-- The sizes the receiver takes: 1 MiB for a whole send message, 0xFFFF0000 bytes for a whole read
response or write request.  The other kinds are checked by the sender. -/
def Pkt.Fits : Pkt → Prop
  | .sendrecv data => 24 + data.length ≤ 1048576
  | .readResp _ data => 36 + data.length ≤ 4294901760
  | .writeReq _ _ data => 36 + data.length ≤ 4294901760
  | _ => True

/-- a connect, accept, reject or share with more than 1 MiB - 40 bytes is refused -/
def Pkt.TooLong : Pkt → Bool
  | .connect data => decide (1048536 < data.length)
  | .rendezvous _ _ _ _ msg => decide (1048536 < msg.length)
  | .accepted data => decide (1048536 < data.length)
  | .rejected data => decide (1048536 < data.length)
  | _ => false

/-- the messages of a history that the endpoint accepted for sending, in order -/
def posted : List Ev → List (Nat × Nat × Pkt)
  | [] => []
  | .post _ xid ctxt p _ :: es => if p.TooLong then posted es else (xid, ctxt, p) :: posted es
  | _ :: es => posted es

/-- the fields of every message posted in a history fit their types and sizes -/
def Honest (es : List Ev) : Prop :=
  ∀ xid ctxt p, (xid, ctxt, p) ∈ posted es → xid < 2 ^ 32 ∧ ctxt < 2 ^ 64 ∧ p.Proper ∧ p.Fits

/-- the sockets report no error and no end of stream in this event -/
def Ev.Quiet : Ev → Prop
  | .post _ _ _ _ rs => SendRes.err ∉ rs
  | .writable rs => SendRes.err ∉ rs
  | .readable r1 r2 => r1 ≠ .eof ∧ r1 ≠ .err ∧ r2 ≠ .eof ∧ r2 ≠ .err

end Verif.ZapFrame
