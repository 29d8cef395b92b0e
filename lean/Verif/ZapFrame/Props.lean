import Verif.ZapFrame.Sim

/-!
# C53: messages over a socket arrive whole, once and in order
-/

namespace Verif.ZapFrame

/-! ## Two endpoints of this library -/

/-- **C53.**  Whatever the sizes in which the kernel takes and returns bytes, and however posting,
writing and reading interleave: what the receiver hands to its handlers is the sequence of posted
messages up to some point, each with its transaction id, context and payload. -/
theorem received_in_order_partial (es : List Ev) (h : Honest es) :
    ∃ k, (run Sys.init es).rx.delivered.map decode = ((posted es).take k).map some := by
  have hs := run_sim es Sys.init [] init_sim h
  rw [List.nil_append] at hs
  obtain ⟨rest, e1, _⟩ := hs.split
  have hdec : ∀ x ∈ posted es, decode (encode x.1 x.2.1 x.2.2) = some x := by
    intro x hx
    obtain ⟨p1, p2, p3, p4⟩ := h x.1 x.2.1 x.2.2 hx
    exact decode_encode _ _ _ p1 p2 p3 (size_ok _ p3 p4 (posted_long es x hx)).1
  obtain ⟨k, hk⟩ : ∃ k, (run Sys.init es).rx.delivered = (wire (posted es)).take k :=
    ⟨(run Sys.init es).rx.delivered.length, by rw [e1]; simp⟩
  refine ⟨k, ?_⟩
  rw [hk]
  simp only [wire, ← List.map_take, List.map_map]
  apply List.map_congr_left
  intro x hx
  exact hdec x (List.mem_of_mem_take hx)

/-- **C53.**  Without a socket error both sides stay up and the connection is not given up by the
receiver. -/
theorem stays_up_partial (es : List Ev) (h : Honest es) (hq : ∀ e ∈ es, e.Quiet) :
    (run Sys.init es).up = true ∧ (run Sys.init es).rx.rc = .ok :=
  run_quiet es Sys.init [] init_sim h hq rfl rfl

/-- **C53.**  Nothing is lost: after any history without a socket error, once the socket takes enough
and enough reads return something, all posted messages have been received. -/
theorem everything_arrives_partial (es : List Ev) (h : Honest es) (hq : ∀ e ∈ es, e.Quiet) :
    ∃ N, ∀ (rs : List SendRes) (rds : List (Nat × Nat)),
      (∀ r ∈ rs, ∃ n, r = .sent (n + 1)) → N ≤ rs.length → N ≤ rds.length →
      (run Sys.init (es ++ .writable rs :: rds.map (fun x => .readable (.got x.1) (.got x.2)))).rx.delivered.map decode
        = (posted es).map some := by
  have hs := run_sim es Sys.init [] init_sim h
  rw [List.nil_append] at hs
  obtain ⟨hu, ho⟩ := stays_up_partial es h hq
  refine ⟨(run Sys.init es).rx.inp.length + (pendAll (run Sys.init es).sq).length + 1, ?_⟩
  intro rs rds ha hn1 hn2
  have hrun : ∀ (a : List Ev) (s : Sys) (b : List Ev), run s (a ++ b) = run (run s a) b := by
    intro a
    induction a with
    | nil => intro s b; rfl
    | cons e a ih => intro s b; exact ih _ _
  rw [hrun]
  obtain ⟨d1, d2⟩ := drain_writes _ _ hs hu rs ha (by omega)
  have hf := flush_sim _ _ hs rs
  have hok : (flush (run Sys.init es) rs).rx.rc = .ok := by
    unfold flush
    split
    · exact ho
    · exact ho
  have hd := drain_reads rds _ _ hf hok (by omega) d1
  simp only [run, step]
  rw [hd]
  simp only [wire, List.map_map]
  apply List.map_congr_left
  intro x hx
  obtain ⟨p1, p2, p3, p4⟩ := h x.1 x.2.1 x.2.2 hx
  exact decode_encode _ _ _ p1 p2 p3 (size_ok _ p3 p4 (posted_long es x hx)).1

/-- A history with a partial write in the middle of a message and reads of a few bytes. -/
def demo : List Ev :=
  [.post false 1 0 (.sendrecv [10, 20, 30]) [.sent 5, .again],
   .post true 2 77 (.sendrecv [40, 50]) [.sent 30, .again],
   .readable (.got 6) (.got 0), .readable (.got 100) (.got 0),
   .post false 3 9 (.writeReq 5 4096 [1, 2, 3]) [],
   .writable [.sent 30, .sent 100, .again, .sent 3],
   .readable .again .again, .readable (.got 0) (.got 2)]

example : Honest demo ∧ (∀ e ∈ demo, e.Quiet) := by
  constructor
  · intro xid ctxt p h
    have : (xid, ctxt, p) ∈ [(1, 0, Pkt.sendrecv [10, 20, 30]), (2, 77, .sendrecv [40, 50]),
      (3, 9, .writeReq 5 4096 [1, 2, 3])] := h
    simp at this
    rcases this with ⟨rfl, rfl, rfl⟩ | ⟨rfl, rfl, rfl⟩ | ⟨rfl, rfl, rfl⟩ <;>
      simp [Pkt.Proper, Pkt.Fits]
  · intro e h
    simp [demo] at h
    rcases h with rfl | rfl | rfl | rfl | rfl | rfl | rfl | rfl <;> simp [Ev.Quiet]

example : (run Sys.init demo).rx.delivered = [] ∧ (run Sys.init demo).rx.buff.data ≠ [] ∧
    (run Sys.init demo).sq ≠ [] := by decide

example : (run Sys.init (demo ++ .writable (List.replicate 90 (.sent 1)) ::
      (List.replicate 120 (Ev.readable (.got 0) (.got 0))))).rx.delivered.map decode =
    [some (1, 0, .sendrecv [10, 20, 30]), some (2, 77, .sendrecv [40, 50]), some (3, 9, .writeReq 5 4096 [1, 2, 3])] := by
  decide +kernel

/-- What the handlers read from a message that this library built is what was put in. -/
theorem round_trip (xid ctxt : Nat) (p : Pkt) (hx : xid < 2 ^ 32) (hc : ctxt < 2 ^ 64) (hp : p.Proper)
    (hf : p.Fits) (ht : p.TooLong = false) : decode (encode xid ctxt p) = some (xid, ctxt, p) :=
  decode_encode xid ctxt p hx hc hp (size_ok p hp hf ht).1

example : decode (encode 7 8 (.rendezvous 3 1 4096 64 [104, 105])) =
    some (7, 8, .rendezvous 3 1 4096 64 [104, 105]) := by decide

/-- A connect message of version 1.3 is taken with any patch level and flags. -/
theorem any_patch_level (a b n xid ctxt : Nat) (data : List Byte) (h : data.length < 2 ^ 32) :
    decodeBody (hdr 1 n xid ctxt ++ (([1, 3, a, b] ++ [83, 79, 67, 75, 69, 84, 0, 0] ++ beBytes 4 data.length) ++ data)) =
      some (.connect data) :=
  decodeBody_connect [1, 3, a, b] rfl rfl n xid ctxt data (by simpa using h)

example : decodeBody (hdr 1 37 5 0 ++ (([1, 3, 7, 1] ++ [83, 79, 67, 75, 69, 84, 0, 0] ++ [0, 0, 0, 1]) ++ [9])) =
    some (.connect [9]) := by decide

/-! ## Any peer -/

/-- all bytes that arrived -/
def arrived (es : List (List Byte × ReadRes × ReadRes)) : List Byte := (es.map (·.1)).flatten

theorem recvMsg_stuck (b : Buff) (inp : List Byte) (r1 r2 : ReadRes) (h1 : 20 ≤ b.data.length)
    (h2 : msgLen b.data ≤ b.data.length) (h3 : b.data.length ≤ b.cap) (h4 : ¬ TooBig b.data) :
    recvMsg b inp r1 r2 = (.ok, b, inp) := by
  unfold recvMsg
  rw [show hdrSz = 20 from rfl, if_neg (by omega)]
  unfold recvBody
  unfold TooBig at h4
  simp only
  rw [if_neg h4, if_neg (by omega), if_neg (by omega : ¬ msgLen b.data > b.cap), if_neg (by omega)]

/-- the buffer of a live endpoint, with any peer -/
structure Safe (x : Rx) : Prop where
  buff : x.rc ≠ .ub → BuffOk x.buff
  part : x.rc = .ok → Incomplete x.buff.data ∨
    (20 ≤ x.buff.data.length ∧ msgLen x.buff.data ≤ x.buff.data.length ∧ ¬ TooBig x.buff.data ∧
      badConnect x.buff.data = true)
  ub : x.rc = .ub → 20 ≤ x.buff.data.length ∧ 4294901760 < msgLen x.buff.data ∧ ¬ TooBig x.buff.data

theorem recvCall_safe (x : Rx) (r1 r2 : ReadRes) (h : Safe x)
    (hby : ∀ b ∈ x.buff.data ++ x.inp, b < 256) :
    Safe (recvCall x r1 r2) ∧ ∀ b ∈ (recvCall x r1 r2).buff.data ++ (recvCall x r1 r2).inp, b < 256 := by
  by_cases hrc : x.rc = .ok
  · have hb := h.buff (by rw [hrc]; decide)
    rcases h.part hrc with hp | ⟨p1, p2, p3, p4⟩
    · cases hm : recvMsg x.buff x.inp r1 r2 with
      | mk rc bi =>
      obtain ⟨b', inp'⟩ := bi
      have ho := recvMsg_out _ _ _ _ _ _ _ hb hp (by
        intro d t hdt _
        apply msgLen_lt
        intro y hy
        apply hby
        rw [← hdt]
        simp [hy]) hm
      have hby' : ∀ b ∈ b'.data ++ inp', b < 256 := by rw [ho.keep]; exact hby
      unfold recvCall
      rw [hrc, hm]
      cases rc with
      | ok =>
        obtain ⟨g1, g2, g3⟩ := ho.room (by decide)
        obtain ⟨o1, o2, o3, o4⟩ := ho.ok rfl
        by_cases hbc : badConnect b'.data = true
        · simp only [hbc, if_true]
          exact ⟨⟨fun _ => ⟨g1, g2, g3⟩, fun _ => .inr ⟨o1, by simp only; omega, o3, hbc⟩, (fun e => by cases e)⟩, hby'⟩
        · simp only [hbc]
          refine ⟨⟨fun _ => ⟨by simp, g2, g3⟩, fun _ => .inl (.inl (by simp)), (fun e => by cases e)⟩, ?_⟩
          intro b hb
          exact hby' b (by simp at hb ⊢; exact .inr hb)
      | again =>
        obtain ⟨g1, g2, g3⟩ := ho.room (by decide)
        exact ⟨⟨fun _ => ⟨g1, g2, g3⟩, fun _ => .inl (ho.again rfl), (fun e => by cases e)⟩, hby'⟩
      | closed =>
        obtain ⟨g1, g2, g3⟩ := ho.room (by decide)
        exact ⟨⟨fun _ => ⟨g1, g2, g3⟩, (fun e => by cases e), (fun e => by cases e)⟩, hby'⟩
      | bad =>
        obtain ⟨g1, g2, g3⟩ := ho.room (by decide)
        exact ⟨⟨fun _ => ⟨g1, g2, g3⟩, (fun e => by cases e), (fun e => by cases e)⟩, hby'⟩
      | ub =>
        exact ⟨⟨(fun e => absurd rfl e), (fun e => by cases e), fun _ => ho.ub rfl⟩, hby'⟩
    · unfold recvCall
      rw [hrc, recvMsg_stuck _ _ _ _ p1 p2 hb.fits p3]
      simp only [p4, if_true]
      exact ⟨⟨fun _ => hb, fun _ => .inr ⟨p1, p2, p3, p4⟩, (fun e => by cases e)⟩, hby⟩
  · have e : recvCall x r1 r2 = x := by
      unfold recvCall
      split
      · rename_i hh; exact absurd hh hrc
      · rfl
    rw [e]
    exact ⟨h, hby⟩

theorem hostile_safe : ∀ (es : List (List Byte × ReadRes × ReadRes)) (x : Rx), Safe x →
    (∀ b ∈ x.buff.data ++ x.inp, b < 256) → (∀ b ∈ arrived es, b < 256) → Safe (hostile x es) := by
  intro es
  induction es with
  | nil => intro x h _ _; exact h
  | cons e es ih =>
    intro x h hx ha
    obtain ⟨bs, r1, r2⟩ := e
    have hbs : ∀ b ∈ bs, b < 256 := fun b hb => ha b (by simp [arrived, hb])
    obtain ⟨s1, s2⟩ := recvCall_safe { x with inp := x.inp ++ bs } r1 r2 ⟨h.buff, h.part, h.ub⟩ (by
      intro b hb
      simp only [← List.append_assoc, List.mem_append] at hb
      rcases hb with (hb | hb) | hb
      · exact hx b (by simp [hb])
      · exact hx b (by simp [hb])
      · exact hbs b hb)
    refine ih _ s1 s2 (fun b hb => ha b ?_)
    simp only [arrived, List.map_cons, List.flatten_cons, List.mem_append]
    exact .inr hb

/-- **C53.**  Whatever bytes a peer sends, in whatever pieces: what is read fits the receive buffer,
unless the peer announces a read response or a write request of more than 0xFFFF0000 bytes. -/
theorem buffer_never_overruns_partial (es : List (List Byte × ReadRes × ReadRes))
    (hby : ∀ b ∈ arrived es, b < 256) :
    (hostile Rx.init es).buff.data.length ≤ (hostile Rx.init es).buff.cap ∨
    ((hostile Rx.init es).rc = .ub ∧ 4294901760 < msgLen (hostile Rx.init es).buff.data ∧
      (msgType (hostile Rx.init es).buff.data = 5 ∨ msgType (hostile Rx.init es).buff.data = 6)) := by
  have h := hostile_safe es Rx.init ⟨fun _ => ⟨by decide, by decide, by decide⟩, fun _ => .inl (.inl (by decide)),
    (fun e => by cases e)⟩ (fun b hb => by cases hb) hby
  by_cases hu : (hostile Rx.init es).rc = .ub
  · obtain ⟨u1, u2, u3⟩ := h.ub hu
    refine .inr ⟨hu, u2, ?_⟩
    unfold TooBig at u3
    refine Classical.byContradiction (fun hn => u3 ⟨fun ho => hn ?_, ?_⟩)
    · rcases ho with ho | ho
      · exact .inr ho
      · exact .inl ho
    · unfold sockbufSz; omega
  · exact .inl (h.buff hu).fits

example : (hostile Rx.init [([0, 2, 0, 0, 0, 0, 0, 26], .got 30, .again),
      ([1, 0, 0, 0, 0, 0, 0, 0, 0, 0, 0, 0, 0, 0, 0, 2, 7], .got 30, .got 30),
      ([8, 99], .got 1, .got 30)]).delivered =
    [[0, 2, 0, 0, 0, 0, 0, 26, 1, 0, 0, 0, 0, 0, 0, 0, 0, 0, 0, 0, 0, 0, 0, 2, 7, 8]] := by decide

theorem hostile_delivered (es : List (List Byte × ReadRes × ReadRes)) : ∀ (x : Rx),
    ∃ l, (hostile x es).delivered = x.delivered ++ l := by
  induction es with
  | nil => intro x; exact ⟨[], by simp [hostile]⟩
  | cons e es ih =>
    intro x
    obtain ⟨bs, r1, r2⟩ := e
    obtain ⟨l1, h1⟩ := recvCall_delivered { x with inp := x.inp ++ bs } r1 r2
    obtain ⟨l2, h2⟩ := ih (recvCall { x with inp := x.inp ++ bs } r1 r2)
    exact ⟨l1 ++ l2, by rw [hostile, h2, h1, List.append_assoc]⟩

theorem hostile_inv : ∀ (es : List (List Byte × ReadRes × ReadRes)) (x : Rx) (stream : List Byte), Inv x stream →
    (∀ b ∈ stream ++ arrived es, b < 256) → (∀ m ∈ (hostile x es).delivered, badConnect m = false) →
    Inv (hostile x es) (stream ++ arrived es) := by
  intro es
  induction es with
  | nil => intro x stream h _ _; simpa [hostile, arrived] using h
  | cons e es ih =>
    intro x stream h hby hbad
    obtain ⟨bs, r1, r2⟩ := e
    have e1 : stream ++ arrived ((bs, r1, r2) :: es) = stream ++ bs ++ arrived es := by simp [arrived]
    rw [e1] at hby ⊢
    obtain ⟨l, hl⟩ := hostile_delivered es (recvCall { x with inp := x.inp ++ bs } r1 r2)
    have hbad' : ∀ m ∈ (hostile (recvCall { x with inp := x.inp ++ bs } r1 r2) es).delivered,
        badConnect m = false := hbad
    refine ih _ _ (recvCall_inv _ r1 r2 _ (arrive_inv x stream bs h) (fun b hb => hby b (by simp at hb ⊢; rcases hb with hb | hb <;> simp [hb])) ?_) hby hbad'
    intro m hm
    exact hbad' m (by rw [hl]; simp [hm])

/-- **C53.**  Whatever bytes a peer sends: the messages handed to the handlers, the partial message
and the unread bytes are exactly the bytes that arrived, in order; each message has the length its
header announces (at least a header), and only read responses and write requests exceed 1 MiB.  Left
out: a stream with a connect message that is turned down, see `bad_connect_spins_defect`. -/
theorem stream_is_cut_by_length_partial (es : List (List Byte × ReadRes × ReadRes))
    (hby : ∀ b ∈ arrived es, b < 256)
    (hbad : ∀ m ∈ (hostile Rx.init es).delivered, badConnect m = false) :
    (hostile Rx.init es).delivered.flatten ++ (hostile Rx.init es).buff.data ++ (hostile Rx.init es).inp = arrived es ∧
    ∀ m ∈ (hostile Rx.init es).delivered, m.length = max 20 (msgLen m) ∧
      (m.length ≤ 1048576 ∨ msgType m = 5 ∨ msgType m = 6) := by
  have h := hostile_inv es Rx.init [] init_inv (by simpa using hby) hbad
  rw [List.nil_append] at h
  refine ⟨h.keep, fun m hm => ?_⟩
  obtain ⟨a, b, c, d⟩ := h.each m hm
  refine ⟨b, ?_⟩
  unfold TooBig at c
  by_cases ht : msgType m = tWriteReq ∨ msgType m = tReadResp
  · rcases ht with ht | ht
    · exact .inr (.inr ht)
    · exact .inr (.inl ht)
  · left
    have : ¬ msgLen m > sockbufSz := fun hg => c ⟨ht, hg⟩
    unfold sockbufSz at this
    omega

/-! ## Defects -/

/-- **C53 is false for long sends.**  A message of more than 1 MiB - 24 bytes is accepted by
`zap_send`; the receiver drops the connection when it sees the header. -/
theorem long_send_defect (data : List Byte) (h1 : 1048576 < 24 + data.length) (h2 : 24 + data.length < 2 ^ 32)
    (r2 : ReadRes) :
    posted [.post false 1 0 (.sendrecv data) [.sent (24 + data.length)], .readable (.got 19) r2] =
      [(1, 0, .sendrecv data)] ∧
    (run Sys.init [.post false 1 0 (.sendrecv data) [.sent (24 + data.length)], .readable (.got 19) r2]).rx.rc = .bad ∧
    (run Sys.init [.post false 1 0 (.sendrecv data) [.sent (24 + data.length)],
      .readable (.got 19) r2]).rx.delivered = [] := by
  have hsz : size (.sendrecv data) = 24 + data.length := by simp [size, hdrSz, body, beBytes_length]
  have hf : flush { Sys.init with sq := [mkWr false 1 0 (.sendrecv data)] } [.sent (24 + data.length)] =
      ⟨[], true, { Rx.init with inp := encode 1 0 (.sendrecv data) }⟩ := by
    have hh := hdr_length (body (.sendrecv data)).1 (size (.sendrecv data)) 1 0
    simp [body] at hh
    simp [flush, Sys.init, sockWrite, mkWr, splits, sendMsg, sendData, Rx.init, encode, body, hh, beBytes_length]
    rw [List.take_of_length_le (by simp [hh, beBytes_length]; omega)]
  have hr : recvCall { Rx.init with inp := encode 1 0 (.sendrecv data) } (.got 19) r2 =
      ⟨⟨(encode 1 0 (.sendrecv data)).take 20, 65536⟩, (encode 1 0 (.sendrecv data)).drop 20, [], .bad⟩ := by
    have hne : encode 1 0 (.sendrecv data) ≠ [] := by
      intro e; have := congrArg List.length e; rw [encode_length, hsz] at this; simp at this
    have hl20 : ((encode 1 0 (.sendrecv data)).take 20).length = 20 := by
      rw [List.length_take, encode_length, hsz]; omega
    have he : (encode 1 0 (.sendrecv data)).take 20 = hdr tSendrecv (24 + data.length) 1 0 := by
      rw [encode, hsz]
      simp only [body, List.append_assoc]
      exact List.take_left' (hdr_length _ _ _ _)
    have ht : msgType ((encode 1 0 (.sendrecv data)).take 20) = tSendrecv := by
      rw [he]; simpa using msgType_hdr tSendrecv (24 + data.length) 1 0 [] (by decide)
    have hm : msgLen ((encode 1 0 (.sendrecv data)).take 20) = 24 + data.length := by
      rw [he]; simpa using msgLen_hdr tSendrecv (24 + data.length) 1 0 [] h2
    have hb : recvBody ⟨(encode 1 0 (.sendrecv data)).take 20, 65536⟩ ((encode 1 0 (.sendrecv data)).drop 20) r2 =
        (.bad, ⟨(encode 1 0 (.sendrecv data)).take 20, 65536⟩, (encode 1 0 (.sendrecv data)).drop 20) := by
      unfold recvBody
      simp only [ht, hm]
      rw [if_pos ⟨by decide, by unfold sockbufSz; omega⟩]
    have hmsg : recvMsg Rx.init.buff (encode 1 0 (.sendrecv data)) (.got 19) r2 =
        (.bad, ⟨(encode 1 0 (.sendrecv data)).take 20, 65536⟩, (encode 1 0 (.sendrecv data)).drop 20) := by
      simp only [recvMsg, Rx.init, Buff.init, hdrSz, List.length_nil, readSock, hne, if_false, List.nil_append]
      simp only [Nat.reduceLT, Nat.reduceAdd, Nat.reduceSub, if_true, Nat.min_self, hl20, Nat.lt_irrefl, if_false]
      exact hb
    unfold recvCall
    simp only [Rx.init] at hmsg ⊢
    rw [hmsg]
  refine ⟨rfl, ?_, ?_⟩
  · simp only [run, step, refused, Bool.false_eq_true, if_false]
    have := hf
    simp only [Sys.init, List.nil_append] at this ⊢
    rw [this, hr]
  · simp only [run, step, refused, Bool.false_eq_true, if_false]
    have := hf
    simp only [Sys.init, List.nil_append] at this ⊢
    rw [this, hr]

example : ∃ data : List Byte, 1048576 < 24 + data.length ∧ 24 + data.length < 2 ^ 32 :=
  ⟨List.replicate 1048553 0, by rw [List.length_replicate]; decide, by rw [List.length_replicate]; decide⟩

/-- **C53 is false for a peer that announces a huge write.**  The new buffer size wraps to zero and
the buffer is freed while in use. -/
theorem huge_length_defect :
    (hostile Rx.init [([0, 6, 0, 0, 255, 255, 0, 1] ++ List.replicate 12 0, .got 19, .again)]).rc = .ub := by
  decide

/-- **C53 is false for a peer that lies about the data length.**  The handler of a 24-byte message
that announces 100 bytes of data reads bytes that were not received. -/
theorem data_length_defect :
    (hostile Rx.init [([0, 2, 0, 0, 0, 0, 0, 24] ++ List.replicate 12 0 ++ [0, 0, 0, 100], .got 19, .got 3)]).delivered.map
      decode = [none] := by
  decide

/-- the same for a message that ends before the fields of its type -/
theorem short_message_defect :
    (hostile Rx.init [([0, 6, 0, 0, 0, 0, 0, 20] ++ List.replicate 12 0, .got 19, .got 3)]).delivered.map decode =
      [none] := by
  decide

/-- a connect message of version 9.9 -/
def badHello : List Byte :=
  [0, 1, 0, 0, 0, 0, 0, 36] ++ List.replicate 12 0 ++ [9, 9, 0, 0] ++ signature ++ [0, 0, 0, 0]

theorem spin : ∀ (es : List (List Byte × ReadRes × ReadRes)) (x : Rx), x.rc = .ok → x.buff = ⟨badHello, 65536⟩ →
    (hostile x es).delivered = x.delivered ++ List.replicate es.length badHello ∧
    (hostile x es).inp = x.inp ++ arrived es := by
  intro es
  induction es with
  | nil => intro x _ _; simp [hostile, arrived]
  | cons e es ih =>
    intro x hr hb
    obtain ⟨bs, r1, r2⟩ := e
    have hc : recvCall { x with inp := x.inp ++ bs } r1 r2 =
        ⟨⟨badHello, 65536⟩, x.inp ++ bs, x.delivered ++ [badHello], .ok⟩ := by
      unfold recvCall
      simp only [hr, hb]
      rw [recvMsg_stuck _ _ _ _ (by decide) (by decide) (by decide) (by unfold TooBig; decide)]
      simp only [show badConnect badHello = true by decide, if_true]
    rw [hostile, hc]
    obtain ⟨i1, i2⟩ := ih ⟨⟨badHello, 65536⟩, x.inp ++ bs, x.delivered ++ [badHello], .ok⟩ rfl rfl
    rw [i1, i2]
    constructor
    · simp only [List.append_assoc, List.length_cons, List.replicate_succ, List.singleton_append]
    · simp [arrived]

/-- **C53 is false after a connect message of another version.**  The message stays in the receive
buffer: every further round of the read loop handles it again and reads nothing, so the loop of an
io thread does not end. -/
theorem bad_connect_spins_defect (es : List (List Byte × ReadRes × ReadRes)) :
    (hostile Rx.init ((badHello, .got 19, .got 15) :: es)).delivered = List.replicate (es.length + 1) badHello ∧
    (hostile Rx.init ((badHello, .got 19, .got 15) :: es)).inp = arrived es := by
  have h0 : recvCall { Rx.init with inp := Rx.init.inp ++ badHello } (.got 19) (.got 15) =
      ⟨⟨badHello, 65536⟩, [], [badHello], .ok⟩ := by decide
  rw [hostile, h0]
  obtain ⟨i1, i2⟩ := spin es ⟨⟨badHello, 65536⟩, [], [badHello], .ok⟩ rfl rfl
  rw [i1, i2]
  exact ⟨by simp [List.replicate_succ], by simp⟩

example : (hostile Rx.init [(badHello, .got 19, .got 15), ([1], .got 0, .got 0), ([], .eof, .eof)]).delivered.length = 3 := by
  decide

end Verif.ZapFrame
