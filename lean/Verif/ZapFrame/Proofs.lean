import Verif.ZapFrame.Spec

/-!
# Proofs about framing
-/

namespace Verif.ZapFrame

/-! ## Encoding and decoding -/

theorem leVal_cons (b : Nat) (l : List Nat) : leVal (b :: l) = leVal l * 256 + b := by
  simp [leVal, beVal_append]

theorem leVal_leBytes : ∀ k n, n < 256 ^ k → leVal (leBytes k n) = n := by
  intro k
  induction k with
  | zero => intro n h; simp at h; subst h; rfl
  | succ k ih =>
    intro n h
    rw [leBytes, leVal_cons, ih]
    · omega
    · rw [Nat.pow_succ] at h
      exact Nat.div_lt_of_lt_mul (by omega)

theorem sub_skip (a m : List Byte) (off n : Nat) (h : a.length ≤ off) :
    sub (a ++ m) off n = sub m (off - a.length) n := by
  have e : (a ++ m).drop off = m.drop (off - a.length) := by
    rw [List.drop_append, List.drop_eq_nil_of_le h, List.nil_append]
  unfold sub
  rw [e, List.length_append]
  by_cases g : off - a.length + n ≤ m.length
  · rw [if_pos g, if_pos (by omega)]
  · rw [if_neg g, if_neg (by omega)]

theorem sub_head (a m : List Byte) (n : Nat) (h : a.length = n) : sub (a ++ m) 0 n = some a := by
  subst h
  simp [sub]

theorem sub_all (a : List Byte) (n : Nat) (h : a.length = n) : sub a 0 n = some a := by
  subst h
  simp [sub]

theorem hdr_length (ty len xid ctxt : Nat) : (hdr ty len xid ctxt).length = 20 := by
  simp [hdr, beBytes_length, leBytes_length]

theorem encode_length (xid ctxt : Nat) (p : Pkt) : (encode xid ctxt p).length = size p := by
  simp [encode, hdr_length, size, hdrSz]
  omega

theorem msgType_hdr (ty len xid ctxt : Nat) (m : List Byte) (h : ty < 2 ^ 16) :
    msgType (hdr ty len xid ctxt ++ m) = ty := by
  have e : (hdr ty len xid ctxt ++ m).take 2 = beBytes 2 ty := by
    simp only [hdr, List.append_assoc]
    exact List.take_left' (beBytes_length 2 ty)
  rw [msgType, e, beVal_beBytes 2 ty (by simpa using h)]

theorem msgLen_hdr (ty len xid ctxt : Nat) (m : List Byte) (h : len < 2 ^ 32) :
    msgLen (hdr ty len xid ctxt ++ m) = len := by
  have e : ((hdr ty len xid ctxt ++ m).drop 4).take 4 = beBytes 4 len := by
    have e1 : hdr ty len xid ctxt ++ m =
        (beBytes 2 ty ++ [0, 0]) ++ (beBytes 4 len ++ (leBytes 4 xid ++ leBytes 8 ctxt ++ m)) := by
      simp [hdr]
    rw [e1, List.drop_left' (by simp [beBytes_length]), List.take_left' (beBytes_length 4 len)]
  rw [msgLen, e, beVal_beBytes 4 len (by simpa using h)]

theorem type_lt (p : Pkt) (h : p.Proper) : (body p).1 < 2 ^ 16 ∧ 1 ≤ (body p).1 := by
  cases p <;>
    first
      | exact h.elim
      | exact ⟨by show _ < 65536; simp [body, tConnect, tSendrecv, tRendezvous, tReadReq, tReadResp,
          tWriteReq, tWriteResp, tAccepted, tRejected, tAckAccepted], by
          simp [body, tConnect, tSendrecv, tRendezvous, tReadReq, tReadResp, tWriteReq, tWriteResp,
            tAccepted, tRejected, tAckAccepted]⟩

/-- the size of a message that is posted and fits -/
theorem size_ok (p : Pkt) (hp : p.Proper) (hf : p.Fits) (ht : p.TooLong = false) :
    size p < 2 ^ 32 ∧ (size p ≤ sockbufSz ∨
      (((body p).1 = tWriteReq ∨ (body p).1 = tReadResp) ∧ size p ≤ 4294901760)) := by
  cases p <;>
    first
      | exact hp.elim
      | (simp [size, hdrSz, body, beBytes_length, leBytes_length, sockbufSz, Pkt.Fits, Pkt.TooLong,
          version, signature, tWriteReq, tReadResp] at *
         try omega)

theorem version_length : version.length = 4 := rfl

theorem signature_length : signature.length = 8 := rfl

theorem pad_length : ([0, 0] : List Byte).length = 2 := rfl

theorem version_ok : versionOk version = true := rfl

theorem decodeBody_connect (v : List Byte) (hv : v.length = 4) (hok : versionOk v = true) (n xid ctxt : Nat)
    (data : List Byte) (hd : data.length < 256 ^ 4) :
    decodeBody (hdr tConnect n xid ctxt ++ ((v ++ signature ++ beBytes 4 data.length) ++ data)) =
      some (.connect data) := by
  have ht := msgType_hdr tConnect n xid ctxt ((v ++ signature ++ beBytes 4 data.length) ++ data) (by decide)
  unfold decodeBody
  rw [ht]
  have hh := hdr_length tConnect n xid ctxt
  have e0 : ∀ off k, 20 ≤ off → sub (hdr tConnect n xid ctxt ++
      ((v ++ signature ++ beBytes 4 data.length) ++ data)) off k =
      sub (v ++ (signature ++ (beBytes 4 data.length ++ data))) (off - 20) k := by
    intro off k h
    rw [sub_skip _ _ _ _ (by omega), hh]
    simp only [List.append_assoc]
  have e1 : sub (v ++ (signature ++ (beBytes 4 data.length ++ data))) 0 4 = some v :=
    sub_head _ _ _ hv
  have e2 : sub (v ++ (signature ++ (beBytes 4 data.length ++ data))) 4 8 = some signature := by
    rw [sub_skip _ _ _ _ (by rw [hv]; omega), hv]
    exact sub_head _ _ _ rfl
  have e3 : sub (v ++ (signature ++ (beBytes 4 data.length ++ data))) 12 4 =
      some (beBytes 4 data.length) := by
    rw [sub_skip _ _ _ _ (by rw [hv]; omega), hv,
      sub_skip _ _ _ _ (by rw [signature_length]; omega), signature_length]
    exact sub_head _ _ _ (beBytes_length _ _)
  have e4 : sub (v ++ (signature ++ (beBytes 4 data.length ++ data))) 16 data.length =
      some data := by
    rw [sub_skip _ _ _ _ (by rw [hv]; omega), hv,
      sub_skip _ _ _ _ (by rw [signature_length]; omega), signature_length,
      sub_skip _ _ _ _ (by rw [beBytes_length]; omega), beBytes_length]
    exact sub_all _ _ rfl
  have hd' : beVal (beBytes 4 data.length) = data.length := beVal_beBytes 4 _ hd
  simp only [if_true, e0 20 4 (by omega), e0 24 8 (by omega), e0 32 4 (by omega),
    fun n => e0 36 n (by omega), Nat.reduceSub, e1, e2, e3, e4, hd', Option.bind_eq_bind, Option.bind_some,
    hok, and_self, not_true, if_false, pure]

theorem decodeBody_encode (xid ctxt : Nat) (p : Pkt) (hp : p.Proper) (hs : size p < 2 ^ 32) :
    decodeBody (encode xid ctxt p) = some p := by
  have ht := msgType_hdr (body p).1 (size p) xid ctxt ((body p).2.1 ++ (body p).2.2) (type_lt p hp).1
  have hl := msgLen_hdr (body p).1 (size p) xid ctxt ((body p).2.1 ++ (body p).2.2) hs
  have he : encode xid ctxt p = hdr (body p).1 (size p) xid ctxt ++ ((body p).2.1 ++ (body p).2.2) := by
    simp [encode]
  have hd : (body p).2.2.length < 256 ^ 4 := by
    simp only [size] at hs; omega
  by_cases hcn : ∃ data, p = .connect data
  · obtain ⟨data, rfl⟩ := hcn
    rw [he]
    exact decodeBody_connect version rfl rfl _ xid ctxt data hd
  rw [he]
  unfold decodeBody
  rw [ht, hl]
  cases p with
  | badConnect => exact hp.elim
  | unknown _ => exact hp.elim
  | rendezvous key acc addr len msg =>
    obtain ⟨h1, h2, h3, h4⟩ := hp
    have hsz : size (.rendezvous key acc addr len msg) = 40 + msg.length := by
      simp [size, hdrSz, body, beBytes_length, leBytes_length]
    have hlt : ¬ 40 + msg.length < 40 := by omega
    have hm : 40 + msg.length - 40 = msg.length := by omega
    simp (disch := simp [beBytes_length, leBytes_length, hdr_length]) only [body, tConnect, tSendrecv, tRendezvous,
      List.append_assoc, sub_skip, sub_head, sub_all, hdr_length, beBytes_length, leBytes_length, hsz,
      Option.bind_eq_bind, Option.bind_some, Nat.reduceSub, Nat.reduceEqDiff, if_true, if_false, hlt, hm,
      leVal_leBytes 4 key (by simpa using h1), beVal_beBytes 4 acc (by simpa using h2),
      beVal_beBytes 8 addr (by simpa using h3), beVal_beBytes 4 len (by simpa using h4), pure]
  | readReq key src len =>
    obtain ⟨h1, h2, h3⟩ := hp
    simp (disch := simp [beBytes_length, leBytes_length, hdr_length]) only [body, tConnect, tSendrecv, tRendezvous, tReadReq,
      List.append_assoc, List.append_nil, sub_skip, sub_head, sub_all, hdr_length, beBytes_length, leBytes_length,
      Option.bind_eq_bind, Option.bind_some, Nat.reduceSub, Nat.reduceEqDiff, if_true, if_false,
      leVal_leBytes 4 key (by simpa using h1), beVal_beBytes 8 src (by simpa using h2),
      beVal_beBytes 4 len (by simpa using h3), pure]
  | readResp status data =>
    have h1 : status < 2 ^ 16 := hp
    simp (disch := simp [beBytes_length, leBytes_length, hdr_length]) only [body, tConnect, tSendrecv, tRendezvous, tReadReq, tReadResp,
      List.append_assoc, sub_skip, sub_head, sub_all, hdr_length, beBytes_length, leBytes_length, pad_length,
      Option.bind_eq_bind, Option.bind_some, Nat.reduceSub, Nat.reduceEqDiff, if_true, if_false,
      beVal_beBytes 2 status (by simpa using h1), beVal_beBytes 4 data.length hd, pure]
  | writeReq key dst data =>
    obtain ⟨h1, h2⟩ := hp
    simp (disch := simp [beBytes_length, leBytes_length, hdr_length]) only [body, tConnect, tSendrecv, tRendezvous, tReadReq, tReadResp, tWriteReq,
      List.append_assoc, sub_skip, sub_head, sub_all, hdr_length, beBytes_length, leBytes_length,
      Option.bind_eq_bind, Option.bind_some, Nat.reduceSub, Nat.reduceEqDiff, if_true, if_false,
      leVal_leBytes 4 key (by simpa using h1), beVal_beBytes 8 dst (by simpa using h2),
      beVal_beBytes 4 data.length hd, pure]
  | writeResp status =>
    have h1 : status < 2 ^ 16 := hp
    simp (disch := simp [beBytes_length, leBytes_length, hdr_length]) only [body, tConnect, tSendrecv, tRendezvous, tReadReq, tReadResp, tWriteReq,
      tWriteResp, List.append_assoc, sub_skip, sub_head, sub_all, hdr_length, beBytes_length,
      Option.bind_eq_bind, Option.bind_some, Nat.reduceSub, Nat.reduceEqDiff, if_true, if_false,
      beVal_beBytes 2 status (by simpa using h1), pure]
  | connect data => exact absurd ⟨data, rfl⟩ hcn
  | sendrecv data =>
    simp (disch := simp [beBytes_length, leBytes_length, hdr_length]) only [body, tConnect, tSendrecv,
      List.append_assoc, sub_skip, sub_head, sub_all, hdr_length, beBytes_length,
      Option.bind_eq_bind, Option.bind_some, Nat.reduceSub, Nat.reduceEqDiff, if_true, if_false,
      beVal_beBytes 4 data.length hd, pure]
  | accepted data =>
    simp (disch := simp [beBytes_length, leBytes_length, hdr_length]) only [body, tConnect, tSendrecv, tRendezvous, tReadReq, tReadResp,
      tWriteReq, tWriteResp, tAccepted, List.append_assoc, sub_skip, sub_head, sub_all, hdr_length, beBytes_length,
      Option.bind_eq_bind, Option.bind_some, Nat.reduceSub, Nat.reduceEqDiff, if_true, if_false,
      beVal_beBytes 4 data.length hd, pure]
  | rejected data =>
    simp (disch := simp [beBytes_length, leBytes_length, hdr_length]) only [body, tConnect, tSendrecv, tRendezvous, tReadReq, tReadResp,
      tWriteReq, tWriteResp, tAccepted, tRejected, List.append_assoc, sub_skip, sub_head, sub_all, hdr_length, beBytes_length,
      Option.bind_eq_bind, Option.bind_some, Nat.reduceSub, Nat.reduceEqDiff, if_true, if_false,
      beVal_beBytes 4 data.length hd, pure]
  | ackAccepted => rfl

theorem decode_encode (xid ctxt : Nat) (p : Pkt) (hx : xid < 2 ^ 32) (hc : ctxt < 2 ^ 64)
    (hp : p.Proper) (hs : size p < 2 ^ 32) : decode (encode xid ctxt p) = some (xid, ctxt, p) := by
  have e : encode xid ctxt p = (beBytes 2 (body p).1 ++ [0, 0] ++ beBytes 4 (size p)) ++
      (leBytes 4 xid ++ (leBytes 8 ctxt ++ ((body p).2.1 ++ (body p).2.2))) := by
    simp [encode, hdr]
  have l : (beBytes 2 (body p).1 ++ [0, 0] ++ beBytes 4 (size p)).length = 8 := by
    simp [beBytes_length]
  have e1 : sub (encode xid ctxt p) 8 4 = some (leBytes 4 xid) := by
    rw [e, sub_skip _ _ _ _ (by omega), l]
    exact sub_head _ _ _ (leBytes_length _ _)
  have e2 : sub (encode xid ctxt p) 12 8 = some (leBytes 8 ctxt) := by
    rw [e, sub_skip _ _ _ _ (by omega), l, sub_skip _ _ _ _ (by rw [leBytes_length]; omega), leBytes_length]
    exact sub_head _ _ _ (leBytes_length _ _)
  simp only [decode, e1, e2, decodeBody_encode xid ctxt p hp hs, Option.bind_eq_bind, Option.bind_some,
    leVal_leBytes 4 xid (by simpa using hx), leVal_leBytes 8 ctxt (by simpa using hc), pure]

/-! ## A message as the receiver measures it -/

/-- what the receiver needs of a message: its length field is right and not too large -/
structure Good (m : List Byte) : Prop where
  hdr : 20 ≤ m.length
  len : msgLen m = m.length
  small : m.length ≤ sockbufSz ∨ ((msgType m = tWriteReq ∨ msgType m = tReadResp) ∧ m.length ≤ 4294901760)
  ok : badConnect m = false

theorem encode_good (xid ctxt : Nat) (p : Pkt) (hp : p.Proper) (hf : p.Fits) (ht : p.TooLong = false) :
    Good (encode xid ctxt p) := by
  obtain ⟨h1, h2⟩ := size_ok p hp hf ht
  have he : encode xid ctxt p = hdr (body p).1 (size p) xid ctxt ++ ((body p).2.1 ++ (body p).2.2) := by
    simp [encode]
  have hty : msgType (encode xid ctxt p) = (body p).1 := by
    rw [he]; exact msgType_hdr _ _ _ _ _ (type_lt p hp).1
  refine ⟨?_, ?_, ?_, ?_⟩
  · rw [encode_length]; simp [size, hdrSz]; omega
  · rw [encode_length, he]; exact msgLen_hdr _ _ _ _ _ h1
  · rw [encode_length, hty]; exact h2
  · unfold badConnect
    rw [hty]
    cases p with
    | connect data =>
      have hh := hdr_length tConnect (size (.connect data)) xid ctxt
      have d20 : (encode xid ctxt (.connect data)).drop 20 =
          version ++ (signature ++ (beBytes 4 data.length ++ data)) := by
        rw [he]
        simp only [body]
        rw [List.drop_left' hh]
        simp only [List.append_assoc]
      have d24 : (encode xid ctxt (.connect data)).drop 24 = signature ++ (beBytes 4 data.length ++ data) := by
        have : (encode xid ctxt (.connect data)).drop 24 =
            ((encode xid ctxt (.connect data)).drop 20).drop 4 := by rw [List.drop_drop]
        rw [this, d20, List.drop_left' version_length]
      rw [d20, d24, List.take_left' version_length, List.take_left' signature_length]
      rfl
    | badConnect => exact hp.elim
    | unknown _ => exact hp.elim
    | _ => rfl

theorem msgLen_prefix (a b : List Byte) (h : 8 ≤ a.length) : msgLen (a ++ b) = msgLen a := by
  unfold msgLen
  rw [List.drop_append_of_le_length (by omega), List.take_append_of_le_length (by simp; omega)]

theorem msgType_prefix (a b : List Byte) (h : 8 ≤ a.length) : msgType (a ++ b) = msgType a := by
  unfold msgType
  rw [List.take_append_of_le_length (by omega)]

/-! ## The size of the extended buffer -/

theorem or_ffff (x : Nat) : x ||| 0xFFFF = x / 65536 * 65536 + 65535 := by
  have h1 : x = 2 ^ 16 * (x / 65536) + x % 65536 := by omega
  have h2 : x % 65536 < 2 ^ 16 := by omega
  have h3 : x % 65536 ||| 0xFFFF = 0xFFFF := by
    have a : 0xFFFF ≤ x % 65536 ||| 0xFFFF := Nat.right_le_or
    have b : x % 65536 ||| 0xFFFF < 2 ^ 16 := Nat.or_lt_two_pow h2 (by omega)
    omega
  calc x ||| 0xFFFF = (2 ^ 16 * (x / 65536) + x % 65536) ||| 0xFFFF := by rw [← h1]
    _ = (2 ^ 16 * (x / 65536) ||| x % 65536) ||| 0xFFFF := by rw [Nat.two_pow_add_eq_or_of_lt h2]
    _ = 2 ^ 16 * (x / 65536) ||| 0xFFFF := by rw [Nat.or_assoc, h3]
    _ = 2 ^ 16 * (x / 65536) + 0xFFFF := (Nat.two_pow_add_eq_or_of_lt (by omega) _).symm
    _ = x / 65536 * 65536 + 65535 := by omega

/-! ## One call of `__recv_msg` -/

/-- the buffer does not hold a whole message -/
def Incomplete (d : List Byte) : Prop := d.length < 20 ∨ d.length < msgLen d

theorem beVal_rev_lt : ∀ (l : List Nat), (∀ b ∈ l, b < 256) → beVal l.reverse < 256 ^ l.length := by
  intro l
  induction l with
  | nil => intro _; simp [beVal]
  | cons b l ih =>
    intro h
    rw [List.reverse_cons, beVal_append, List.length_cons, Nat.pow_succ]
    have h1 := ih (fun c hc => h c (by simp [hc]))
    have h2 := h b (by simp)
    omega

theorem msgLen_lt (m : List Byte) (h : ∀ b ∈ m, b < 256) : msgLen m < 2 ^ 32 := by
  have h1 := beVal_rev_lt ((m.drop 4).take 4).reverse (fun b hb =>
    h b (List.mem_of_mem_drop (List.mem_of_mem_take (List.mem_reverse.1 hb))))
  rw [List.reverse_reverse] at h1
  refine Nat.lt_of_lt_of_le h1 ?_
  have : (((m.drop 4).take 4).reverse).length ≤ 4 := by simp; omega
  calc 256 ^ (((m.drop 4).take 4).reverse).length ≤ 256 ^ 4 := Nat.pow_le_pow_right (by omega) this
    _ = 2 ^ 32 := by decide

theorem readSock_spec (r : ReadRes) (rq : Nat) (inp : List Byte) (hq : 0 < rq) (rc : Rc)
    (c inp' : List Byte) (h : readSock r rq inp = (rc, c, inp')) :
    c ++ inp' = inp ∧ c.length ≤ rq ∧ (rc = .ok → c ≠ [] ∧ ∃ n, r = .got n) ∧ (rc ≠ .ok → c = []) ∧
      rc ≠ .ub ∧ (rc = .closed → r = .eof) ∧ (rc = .bad → r = .err) ∧
      (∀ n, r = .got n → inp ≠ [] → rc = .ok) := by
  unfold readSock at h
  cases r with
  | again => simp at h; obtain ⟨rfl, rfl, rfl⟩ := h; simp
  | eof => simp at h; obtain ⟨rfl, rfl, rfl⟩ := h; simp
  | err => simp at h; obtain ⟨rfl, rfl, rfl⟩ := h; simp
  | got n =>
    by_cases hi : inp = []
    · simp [hi] at h; obtain ⟨rfl, rfl, rfl⟩ := h; simp [hi]
    · simp only [hi, if_false, Prod.mk.injEq] at h
      obtain ⟨rfl, rfl, rfl⟩ := h
      refine ⟨List.take_append_drop _ _, ?_, ?_, ?_, ?_, ?_, ?_, ?_⟩
      · simp; omega
      · intro _
        refine ⟨?_, n, rfl⟩
        intro e
        have h1 := congrArg List.length e
        have h2 : 0 < inp.length := List.length_pos_iff.2 hi
        rw [List.length_take, List.length_nil] at h1
        omega
      · intro e; exact absurd rfl e
      · intro e; cases e
      · intro e; cases e
      · intro e; cases e
      · intro _ _ _; rfl

/-- the receiver refuses a message of this length -/
def TooBig (m : List Byte) : Prop :=
  ¬ (msgType m = tWriteReq ∨ msgType m = tReadResp) ∧ msgLen m > sockbufSz

/-- what one call of `__recv_msg` guarantees -/
structure Out (b : Buff) (inp : List Byte) (r1 r2 : ReadRes) (rc : Rc) (b' : Buff) (inp' : List Byte) : Prop where
  keep : b'.data ++ inp' = b.data ++ inp
  room : rc ≠ .ub → b'.data.length ≤ b'.cap ∧ 65536 ≤ b'.cap ∧ b'.cap ≤ 4294901760
  ok : rc = .ok → 20 ≤ b'.data.length ∧ b'.data.length = max 20 (msgLen b'.data) ∧ ¬ TooBig b'.data ∧
    msgLen b'.data ≤ 4294901760
  again : rc = .again → Incomplete b'.data
  closed : rc = .closed → r1 = .eof ∨ r2 = .eof
  bad : rc = .bad → r1 = .err ∨ r2 = .err ∨ (20 ≤ b'.data.length ∧ TooBig b'.data)
  ub : rc = .ub → 20 ≤ b'.data.length ∧ 4294901760 < msgLen b'.data ∧ ¬ TooBig b'.data
  live : (∃ n, r1 = .got n) → (∃ n, r2 = .got n) → inp ≠ [] → rc = .ok ∨ rc = .again → inp'.length < inp.length

theorem recvBody_out (b : Buff) (inp : List Byte) (r : ReadRes) (rc : Rc) (b' : Buff) (inp' : List Byte)
    (h20 : 20 ≤ b.data.length) (hcap : b.data.length ≤ b.cap) (hc : 65536 ≤ b.cap) (hcu : b.cap ≤ 4294901760)
    (hlt : b.data.length ≤ max 20 (msgLen b.data))
    (hlen : msgLen b.data < 2 ^ 32) (h : recvBody b inp r = (rc, b', inp')) :
    b'.data ++ inp' = b.data ++ inp ∧
    (rc ≠ .ub → b'.data.length ≤ b'.cap ∧ 65536 ≤ b'.cap ∧ b'.cap ≤ 4294901760) ∧
    20 ≤ b'.data.length ∧ msgLen b'.data = msgLen b.data ∧ msgType b'.data = msgType b.data ∧
    (rc = .ok → b'.data.length = max 20 (msgLen b'.data) ∧ ¬ TooBig b'.data ∧ msgLen b'.data ≤ 4294901760) ∧
    (rc = .again → b'.data.length < msgLen b'.data) ∧
    (rc = .closed → r = .eof) ∧
    (rc = .bad → r = .err ∨ TooBig b'.data) ∧
    (rc = .ub → 4294901760 < msgLen b'.data ∧ ¬ TooBig b'.data) ∧
    ((∃ n, r = .got n) → inp ≠ [] → b.data.length < msgLen b.data → rc = .ok ∨ rc = .again →
      inp'.length < inp.length) ∧
    inp'.length ≤ inp.length := by
  unfold recvBody at h
  simp only at h
  by_cases hb : TooBig b.data
  · unfold TooBig at hb
    rw [if_pos hb] at h
    simp at h
    obtain ⟨rfl, rfl, rfl⟩ := h
    simp [TooBig, hb, hcap, h20, hc, hcu]
  have hb' := hb
  unfold TooBig at hb
  rw [if_neg hb, or_ffff] at h
  by_cases hu : msgLen b.data > b.cap ∧ ((msgLen b.data - 1) / 65536 * 65536 + 65535 + 1) % 2 ^ 32 = 0
  · rw [if_pos hu] at h
    simp at h
    obtain ⟨rfl, rfl, rfl⟩ := h
    have : 4294901760 < msgLen b.data := by omega
    simp [hb', hcap, h20, this]
  rw [if_neg hu] at h
  generalize hb2 : (if msgLen b.data > b.cap then
    { b with cap := ((msgLen b.data - 1) / 65536 * 65536 + 65535 + 1) % 2 ^ 32 } else b : Buff) = b2 at h
  have hd2 : b2.data = b.data := by subst hb2; split <;> rfl
  have hc2 : 65536 ≤ b2.cap ∧ b2.cap ≤ 4294901760 ∧ b.cap ≤ b2.cap ∧ msgLen b.data ≤ b2.cap := by
    subst hb2
    split
    · simp only; omega
    · omega
  have hsz : msgLen b.data ≤ 4294901760 := by omega
  rw [hd2] at h
  by_cases hr : b.data.length < msgLen b.data
  · rw [if_pos hr] at h
    cases hrs : readSock r (msgLen b.data - b.data.length) inp with
    | mk rc0 ci =>
    obtain ⟨c, inp0⟩ := ci
    rw [hrs] at h
    obtain ⟨s1, s2, s3, s4, s5, s6, s7, s8⟩ := readSock_spec _ _ _ (by omega) _ _ _ hrs
    by_cases ho : rc0 = .ok
    · subst ho
      obtain ⟨hne, n, rfl⟩ := s3 rfl
      have hcl : 0 < c.length := List.length_pos_iff.2 hne
      simp only at h
      have hml : msgLen (b.data ++ c) = msgLen b.data := msgLen_prefix _ _ (by omega)
      have hmt : msgType (b.data ++ c) = msgType b.data := msgType_prefix _ _ (by omega)
      have hTB : ¬ TooBig (b.data ++ c) := by unfold TooBig; rw [hml, hmt]; exact hb
      have hil : inp0.length < inp.length := by
        rw [← s1, List.length_append]; omega
      by_cases hs : c.length < msgLen b.data - b.data.length
      · rw [if_pos hs] at h
        simp at h
        obtain ⟨rfl, rfl, rfl⟩ := h
        simp [hml, hmt, hTB, s1]
        omega
      · rw [if_neg hs] at h
        simp at h
        obtain ⟨rfl, rfl, rfl⟩ := h
        simp [hml, hmt, hTB, s1]
        omega
    · have hc0 := s4 ho
      subst hc0
      rw [List.nil_append] at s1
      subst s1
      have h' : (rc0, b2, inp0) = (rc, b', inp') := by
        revert h
        cases rc0 <;> simp at * 
      simp at h'
      obtain ⟨rfl, rfl, rfl⟩ := h'
      rw [hd2]
      refine ⟨rfl, fun _ => ⟨by omega, hc2.1, hc2.2.1⟩, h20, rfl, rfl, fun e => absurd e ho, fun _ => hr, s6,
        fun e => .inl (s7 e), fun e => absurd e s5, ?_, Nat.le_refl _⟩
      intro ⟨n, hn⟩ hi _ _
      exact absurd (s8 n hn hi) ho
  · rw [if_neg hr] at h
    simp at h
    obtain ⟨rfl, rfl, rfl⟩ := h
    rw [hd2]
    simp [hb', h20, hc2.1, hc2.2.1, hr]
    omega

/-- the receive buffer is inside its allocation -/
structure BuffOk (b : Buff) : Prop where
  fits : b.data.length ≤ b.cap
  lo : 65536 ≤ b.cap
  hi : b.cap ≤ 4294901760

theorem recvMsg_out (b : Buff) (inp : List Byte) (r1 r2 : ReadRes) (rc : Rc) (b' : Buff) (inp' : List Byte)
    (hok : BuffOk b) (hinc : Incomplete b.data) (hby : ∀ d t, d ++ t = b.data ++ inp → 20 ≤ d.length → msgLen d < 2 ^ 32)
    (h : recvMsg b inp r1 r2 = (rc, b', inp')) : Out b inp r1 r2 rc b' inp' := by
  obtain ⟨hcap, hc, hcu⟩ := hok
  unfold recvMsg at h
  by_cases h20 : b.data.length < 20
  · rw [show hdrSz = 20 from rfl, if_pos h20] at h
    simp only at h
    cases hrs : readSock r1 (20 - b.data.length) inp with
    | mk rc0 ci =>
    obtain ⟨c, inp0⟩ := ci
    rw [hrs] at h
    obtain ⟨s1, s2, s3, s4, s5, s6, s7, s8⟩ := readSock_spec _ _ _ (by omega) _ _ _ hrs
    by_cases ho : rc0 = .ok
    · subst ho
      obtain ⟨hne, n, rfl⟩ := s3 rfl
      have hcl : 0 < c.length := List.length_pos_iff.2 hne
      have hil : inp0.length < inp.length := by
        rw [← s1, List.length_append]; omega
      simp only at h
      by_cases hs : c.length < 20 - b.data.length
      · rw [if_pos hs] at h
        simp at h
        obtain ⟨rfl, rfl, rfl⟩ := h
        have hl : (b.data ++ c).length < 20 := by rw [List.length_append]; omega
        exact ⟨by simp [s1], fun _ => ⟨by simp only; omega, hc, hcu⟩, (fun e => by cases e), fun _ => .inl hl,
          (fun e => by cases e), (fun e => by cases e), (fun e => by cases e), fun _ _ _ _ => hil⟩
      · rw [if_neg hs] at h
        have hl : (b.data ++ c).length = 20 := by rw [List.length_append]; omega
        have hlt : msgLen (b.data ++ c) < 2 ^ 32 := hby _ inp0 (by rw [List.append_assoc, s1]) (by omega)
        obtain ⟨t1, t2, t3, t4, t5, t6, t7, t8, t9, t10, t11, t12⟩ :=
          recvBody_out { b with data := b.data ++ c } inp0 r2 rc b' inp' (by simp only; omega) (by simp only; omega)
            hc hcu (by simp only; omega) hlt h
        refine ⟨by rw [t1]; simp [s1], t2, fun e => ⟨t3, t6 e⟩, fun e => .inr (t7 e), fun e => .inr (t8 e), ?_,
          fun e => ⟨t3, t10 e⟩, fun _ _ _ _ => by omega⟩
        intro e
        rcases t9 e with e | e
        · exact .inr (.inl e)
        · exact .inr (.inr ⟨t3, e⟩)
    · have hc0 := s4 ho
      subst hc0
      rw [List.nil_append] at s1
      subst s1
      have h' : (rc0, b, inp0) = (rc, b', inp') := by
        revert h
        cases rc0 <;> simp at *
      simp at h'
      obtain ⟨rfl, rfl, rfl⟩ := h'
      refine ⟨rfl, fun _ => ⟨hcap, hc, hcu⟩, fun e => absurd e ho, fun _ => .inl h20, fun e => .inl (s6 e),
        fun e => .inl (s7 e), fun e => absurd e s5, ?_⟩
      intro ⟨n, hn⟩ _ hi _
      exact absurd (s8 n hn hi) ho
  · rw [show hdrSz = 20 from rfl, if_neg h20] at h
    have hlt : b.data.length < msgLen b.data := hinc.resolve_left h20
    obtain ⟨t1, t2, t3, t4, t5, t6, t7, t8, t9, t10, t11, t12⟩ :=
      recvBody_out b inp r2 rc b' inp' (by omega) hcap hc hcu (by omega)
        (hby _ inp rfl (by omega)) h
    refine ⟨t1, t2, fun e => ⟨t3, t6 e⟩, fun e => .inr (t7 e), fun e => .inr (t8 e), ?_,
      fun e => ⟨t3, t10 e⟩, fun _ hg hi e => t11 hg hi hlt e⟩
    intro e
    rcases t9 e with e | e
    · exact .inr (.inl e)
    · exact .inr (.inr ⟨t3, e⟩)

/-! ## Any peer -/

/-- invariant of the receiving side, for any bytes -/
structure Inv (x : Rx) (stream : List Byte) : Prop where
  keep : x.delivered.flatten ++ x.buff.data ++ x.inp = stream
  room : x.rc ≠ .ub → BuffOk x.buff
  part : x.rc = .ok → Incomplete x.buff.data
  each : ∀ m ∈ x.delivered, 20 ≤ m.length ∧ m.length = max 20 (msgLen m) ∧ ¬ TooBig m ∧ msgLen m ≤ 4294901760

theorem recvCall_delivered (x : Rx) (r1 r2 : ReadRes) : ∃ l, (recvCall x r1 r2).delivered = x.delivered ++ l := by
  unfold recvCall
  split
  · split
    · exact ⟨_, rfl⟩
    · exact ⟨[], by simp⟩
    · exact ⟨[], by simp⟩
  · exact ⟨[], by simp⟩

theorem recvCall_inv (x : Rx) (r1 r2 : ReadRes) (stream : List Byte) (hi : Inv x stream)
    (hby : ∀ b ∈ stream, b < 256) (hbad : ∀ m ∈ (recvCall x r1 r2).delivered, badConnect m = false) :
    Inv (recvCall x r1 r2) stream := by
  obtain ⟨h1, h2, h3, h4⟩ := hi
  by_cases hrc : x.rc = .ok
  · cases hm : recvMsg x.buff x.inp r1 r2 with
    | mk rc bi =>
    obtain ⟨b', inp'⟩ := bi
    have ho := recvMsg_out _ _ _ _ _ _ _ (h2 (by rw [hrc]; decide)) (h3 hrc) (by
      intro d t hdt _
      apply msgLen_lt
      intro y hy
      apply hby
      rw [← h1, List.append_assoc, ← hdt]
      simp [hy]) hm
    unfold recvCall at hbad ⊢
    rw [hrc, hm] at hbad ⊢
    have hroom := ho.room
    cases rc with
    | ok =>
      simp only at hbad ⊢
      have hb0 : badConnect b'.data = false := hbad _ (by simp)
      rw [hb0]
      simp only [Bool.false_eq_true, if_false]
      obtain ⟨g1, g2, g3⟩ := hroom (by decide)
      refine ⟨?_, fun _ => ⟨by simp, g2, g3⟩, fun _ => .inl (by simp), ?_⟩
      · simp
        rw [ho.keep, ← List.append_assoc, h1]
      · intro m hmem
        rw [List.mem_append] at hmem
        rcases hmem with hmem | hmem
        · exact h4 m hmem
        · simp at hmem
          subst hmem
          exact ho.ok rfl
    | again =>
      obtain ⟨g1, g2, g3⟩ := hroom (by decide)
      exact ⟨by simp only; rw [List.append_assoc, ho.keep, ← List.append_assoc, h1], fun _ => ⟨g1, g2, g3⟩,
        fun _ => ho.again rfl, h4⟩
    | closed =>
      obtain ⟨g1, g2, g3⟩ := hroom (by decide)
      exact ⟨by simp only; rw [List.append_assoc, ho.keep, ← List.append_assoc, h1], fun _ => ⟨g1, g2, g3⟩,
        (fun e => by cases e), h4⟩
    | bad =>
      obtain ⟨g1, g2, g3⟩ := hroom (by decide)
      exact ⟨by simp only; rw [List.append_assoc, ho.keep, ← List.append_assoc, h1], fun _ => ⟨g1, g2, g3⟩,
        (fun e => by cases e), h4⟩
    | ub =>
      exact ⟨by simp only; rw [List.append_assoc, ho.keep, ← List.append_assoc, h1], fun e => absurd rfl e,
        (fun e => by cases e), h4⟩
  · have e : recvCall x r1 r2 = x := by
      unfold recvCall
      split
      · rename_i hh; exact absurd hh hrc
      · rfl
    rw [e]
    exact ⟨h1, h2, h3, h4⟩

theorem arrive_inv (x : Rx) (stream bs : List Byte) (hi : Inv x stream) :
    Inv { x with inp := x.inp ++ bs } (stream ++ bs) :=
  ⟨by simp only; rw [← hi.keep]; simp, hi.room, hi.part, hi.each⟩

theorem init_inv : Inv Rx.init [] :=
  ⟨rfl, fun _ => ⟨by decide, by decide, by decide⟩, fun _ => .inl (by decide), (fun m h => by cases h)⟩

end Verif.ZapFrame
