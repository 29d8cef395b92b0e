import Verif.ZapFrame.Proofs

/-!
# The sender, and both sides together
-/

namespace Verif.ZapFrame

/-! ## Sending -/

/-- the bytes of a work request that were not sent yet -/
def pend (w : Wr) : List Byte :=
  if w.msgLen = 0 then w.data.drop w.off else w.msg.drop w.off ++ w.data

/-- the counters of a work request agree with its bytes -/
structure WrOk (w : Wr) : Prop where
  msg : w.msgLen ≠ 0 → w.off + w.msgLen = w.msg.length ∧ w.dataLen = w.data.length
  data : w.msgLen = 0 → w.off + w.dataLen = w.data.length

theorem mkWr_ok (mapped : Bool) (xid ctxt : Nat) (p : Pkt) :
    WrOk (mkWr mapped xid ctxt p) ∧ pend (mkWr mapped xid ctxt p) = encode xid ctxt p := by
  have hl := hdr_length (body p).1 (size p) xid ctxt
  unfold mkWr
  split
  · refine ⟨⟨fun _ => ⟨by simp, rfl⟩, fun h => ?_⟩, ?_⟩
    · simp [hl] at h
    · simp [pend, hl, encode]
  · refine ⟨⟨fun _ => ⟨by simp [Nat.add_assoc], rfl⟩, fun h => ?_⟩, ?_⟩
    · simp [hl] at h
    · simp [pend, hl, encode]

/-- every result in the list sends something -/
def AllSent (rs : List SendRes) : Prop := ∀ r ∈ rs, ∃ n, r = .sent (n + 1)

theorem sendMsg_spec : ∀ (rs : List SendRes) (w : Wr) (bs : List Byte) (w' : Wr) (rs' : List SendRes)
    (e : Option WEnd), WrOk w → sendMsg w rs = (bs, w', rs', e) →
    bs ++ pend w' = pend w ∧ WrOk w' ∧ (e = none → w'.msgLen = 0) ∧ (e = some .err → .err ∈ rs) ∧
    e ≠ some .drained ∧ (∀ r ∈ rs', r ∈ rs) ∧
    (AllSent rs → (e = none → rs.length ≤ rs'.length + bs.length) ∧ (e ≠ none → rs.length ≤ bs.length)) := by
  intro rs
  induction rs with
  | nil =>
    intro w bs w' rs' e hw h
    unfold sendMsg at h
    split at h
    · rename_i h0; simp at h; obtain ⟨rfl, rfl, rfl, rfl⟩ := h; simp [hw, h0]
    · simp at h; obtain ⟨rfl, rfl, rfl, rfl⟩ := h; simp [hw]
  | cons r rs ih =>
    intro w bs w' rs' e hw h
    unfold sendMsg at h
    by_cases h0 : w.msgLen = 0
    · rw [if_pos h0] at h
      simp at h
      obtain ⟨rfl, rfl, rfl, rfl⟩ := h
      simp [hw, h0]
    rw [if_neg h0] at h
    cases r with
    | again =>
      simp at h
      obtain ⟨rfl, rfl, rfl, rfl⟩ := h
      refine ⟨rfl, hw, (fun h => by cases h), (fun h => by cases h), (fun h => by cases h), fun r hr => by simp [hr], ?_⟩
      intro ha
      obtain ⟨n, hn⟩ := ha .again (by simp)
      cases hn
    | err =>
      simp at h
      obtain ⟨rfl, rfl, rfl, rfl⟩ := h
      refine ⟨rfl, hw, (fun h => by cases h), (fun _ => by simp), (fun h => by cases h), fun r hr => by simp [hr], ?_⟩
      intro ha
      obtain ⟨n, hn⟩ := ha .err (by simp)
      cases hn
    | sent n =>
      simp only at h
      generalize hw2 : (⟨w.msg, w.msgLen - min n w.msgLen, w.data, w.dataLen,
        if w.msgLen - min n w.msgLen = 0 then 0 else w.off + min n w.msgLen⟩ : Wr) = w2 at h
      cases hs : sendMsg w2 rs with
      | mk bs2 x =>
      obtain ⟨w3, rs3, e3⟩ := x
      rw [hs] at h
      simp at h
      obtain ⟨rfl, rfl, rfl, rfl⟩ := h
      obtain ⟨m1, m2⟩ := hw.msg h0
      have hw2ok : WrOk w2 ∧ (w.msg.drop w.off).take (min n w.msgLen) ++ pend w2 = pend w := by
        subst hw2
        by_cases hz : w.msgLen - min n w.msgLen = 0
        · refine ⟨⟨fun h => absurd hz h, fun _ => by simp [hz, m2]⟩, ?_⟩
          simp only [pend, hz, h0, if_true, if_false, List.drop_zero]
          rw [List.take_of_length_le (by simp; omega)]
        · refine ⟨⟨fun _ => by simp only [hz, if_false]; omega, fun h => absurd h hz⟩, ?_⟩
          simp only [pend, hz, h0, if_false]
          rw [← List.append_assoc, ← List.drop_drop, List.take_append_drop]
      obtain ⟨i1, i2, i3, i4, i5, i6, i7⟩ := ih _ _ _ _ _ hw2ok.1 hs
      refine ⟨by rw [List.append_assoc, i1, hw2ok.2], i2, i3, fun h => by simp [i4 h], i5,
        fun r hr => by simp [i6 r hr], ?_⟩
      intro ha
      obtain ⟨k, hk⟩ := ha (.sent n) (by simp)
      simp at hk
      have hlen : 0 < ((w.msg.drop w.off).take (min n w.msgLen)).length := by
        rw [List.length_take, List.length_drop]; omega
      obtain ⟨j1, j2⟩ := i7 (fun r hr => ha r (by simp [hr]))
      rw [List.length_append, List.length_cons]
      exact ⟨fun h => by have := j1 h; omega, fun h => by have := j2 h; omega⟩

theorem sendData_spec : ∀ (rs : List SendRes) (w : Wr) (bs : List Byte) (w' : Wr) (rs' : List SendRes)
    (e : Option WEnd), WrOk w → w.msgLen = 0 → sendData w rs = (bs, w', rs', e) →
    bs ++ pend w' = pend w ∧ WrOk w' ∧ (e = none → pend w' = []) ∧ (e = some .err → .err ∈ rs) ∧
    e ≠ some .drained ∧ (∀ r ∈ rs', r ∈ rs) ∧
    (AllSent rs → (e = none → rs.length ≤ rs'.length + bs.length) ∧ (e ≠ none → rs.length ≤ bs.length)) := by
  intro rs
  induction rs with
  | nil =>
    intro w bs w' rs' e hw hm h
    have hd := hw.data hm
    unfold sendData at h
    split at h
    · rename_i h0; simp at h; obtain ⟨rfl, rfl, rfl, rfl⟩ := h; simp [hw, pend, hm]; omega
    · simp at h; obtain ⟨rfl, rfl, rfl, rfl⟩ := h; simp [hw]
  | cons r rs ih =>
    intro w bs w' rs' e hw hm h
    have hd := hw.data hm
    unfold sendData at h
    by_cases h0 : w.dataLen = 0
    · rw [if_pos h0] at h
      simp at h
      obtain ⟨rfl, rfl, rfl, rfl⟩ := h
      simp [hw, pend, hm]
      omega
    rw [if_neg h0] at h
    cases r with
    | again =>
      simp at h
      obtain ⟨rfl, rfl, rfl, rfl⟩ := h
      refine ⟨rfl, hw, (fun h => by cases h), (fun h => by cases h), (fun h => by cases h), fun r hr => by simp [hr], ?_⟩
      intro ha
      obtain ⟨n, hn⟩ := ha .again (by simp)
      cases hn
    | err =>
      simp at h
      obtain ⟨rfl, rfl, rfl, rfl⟩ := h
      refine ⟨rfl, hw, (fun h => by cases h), (fun _ => by simp), (fun h => by cases h), fun r hr => by simp [hr], ?_⟩
      intro ha
      obtain ⟨n, hn⟩ := ha .err (by simp)
      cases hn
    | sent n =>
      simp only at h
      generalize hw2 : ({ w with dataLen := w.dataLen - min n w.dataLen, off := w.off + min n w.dataLen } : Wr) = w2 at h
      cases hs : sendData w2 rs with
      | mk bs2 x =>
      obtain ⟨w3, rs3, e3⟩ := x
      rw [hs] at h
      simp at h
      obtain ⟨rfl, rfl, rfl, rfl⟩ := h
      have hw2m : w2.msgLen = 0 := by subst hw2; exact hm
      have hw2ok : WrOk w2 ∧ (w.data.drop w.off).take (min n w.dataLen) ++ pend w2 = pend w := by
        subst hw2
        refine ⟨⟨fun h => absurd hm h, fun _ => by simp only; omega⟩, ?_⟩
        simp only [pend, hm, if_true]
        rw [← List.drop_drop, List.take_append_drop]
      obtain ⟨i1, i2, i3, i4, i5, i6, i7⟩ := ih _ _ _ _ _ hw2ok.1 hw2m hs
      refine ⟨by rw [List.append_assoc, i1, hw2ok.2], i2, i3, fun h => by simp [i4 h], i5,
        fun r hr => by simp [i6 r hr], ?_⟩
      intro ha
      obtain ⟨k, hk⟩ := ha (.sent n) (by simp)
      simp at hk
      have hlen : 0 < ((w.data.drop w.off).take (min n w.dataLen)).length := by
        rw [List.length_take, List.length_drop]; omega
      obtain ⟨j1, j2⟩ := i7 (fun r hr => ha r (by simp [hr]))
      rw [List.length_append, List.length_cons]
      exact ⟨fun h => by have := j1 h; omega, fun h => by have := j2 h; omega⟩

/-- what is left in the queue -/
def pendAll (q : List Wr) : List Byte := (q.map pend).flatten

theorem sockWrite_spec : ∀ (q : List Wr) (rs : List SendRes) (bs : List Byte) (q' : List Wr) (e : WEnd),
    (∀ w ∈ q, WrOk w) → sockWrite q rs = (bs, q', e) →
    bs ++ pendAll q' = pendAll q ∧ (∀ w ∈ q', WrOk w) ∧ (e = .drained → q' = []) ∧ (e = .err → .err ∈ rs) ∧
    (AllSent rs → e ≠ .drained → rs.length ≤ bs.length) := by
  intro q
  induction q with
  | nil =>
    intro rs bs q' e _ h
    simp [sockWrite] at h
    obtain ⟨rfl, rfl, rfl⟩ := h
    simp
  | cons w q ih =>
    intro rs bs q' e hq h
    have hq1 : WrOk w := hq w (by simp)
    have hq2 : ∀ v ∈ q, WrOk v := fun v hv => hq v (by simp [hv])
    unfold sockWrite at h
    cases hs : sendMsg w rs with
    | mk bs1 x =>
    obtain ⟨w1, rs1, e1⟩ := x
    rw [hs] at h
    obtain ⟨a1, a2, a3, a4, a5, a6, a7⟩ := sendMsg_spec _ _ _ _ _ _ hq1 hs
    cases e1 with
    | some e1 =>
      simp at h
      obtain ⟨rfl, rfl, rfl⟩ := h
      refine ⟨?_, ?_, (fun h => by subst h; exact absurd rfl a5), fun h => a4 (by rw [h]), fun ha _ => (a7 ha).2 (by simp)⟩
      · simp only [pendAll, List.map_cons, List.flatten_cons]
        rw [← List.append_assoc, a1]
      · intro v hv
        rcases List.mem_cons.1 hv with rfl | hv
        · exact a2
        · exact hq2 v hv
    | none =>
      simp only at h
      cases hs2 : sendData w1 rs1 with
      | mk bs2 x =>
      obtain ⟨w2, rs2, e2⟩ := x
      rw [hs2] at h
      obtain ⟨b1, b2, b3, b4, b5, b6, b7⟩ := sendData_spec _ _ _ _ _ _ a2 (a3 rfl) hs2
      cases e2 with
      | some e2 =>
        simp at h
        obtain ⟨rfl, rfl, rfl⟩ := h
        refine ⟨?_, ?_, (fun h => by subst h; exact absurd rfl b5), fun h => a6 _ (b4 (by rw [h])), ?_⟩
        · simp only [pendAll, List.map_cons, List.flatten_cons]
          rw [List.append_assoc, ← List.append_assoc bs2, b1, ← List.append_assoc, a1]
        · intro v hv
          rcases List.mem_cons.1 hv with rfl | hv
          · exact b2
          · exact hq2 v hv
        · intro ha _
          have h1 := (a7 ha).1 rfl
          have h2 := (b7 (fun r hr => ha r (a6 r hr))).2 (by simp)
          rw [List.length_append]
          omega
      | none =>
        simp only at h
        cases hs3 : sockWrite q rs2 with
        | mk bs3 x =>
        obtain ⟨q3, e3⟩ := x
        rw [hs3] at h
        simp at h
        obtain ⟨rfl, rfl, rfl⟩ := h
        obtain ⟨c1, c2, c3, c4, c5⟩ := ih _ _ _ _ hq2 hs3
        refine ⟨?_, c2, c3, fun h => a6 _ (b6 _ (c4 h)), ?_⟩
        · have hp := b3 rfl
          rw [hp, List.append_nil] at b1
          have hc : pendAll (w :: q) = pend w ++ pendAll q := by simp [pendAll]
          rw [hc, ← a1, ← b1, ← c1]
          simp
        · intro ha hne
          have h1 := (a7 ha).1 rfl
          have ha1 : AllSent rs1 := fun r hr => ha r (a6 r hr)
          have h2 := (b7 ha1).1 rfl
          have h3 := c5 (fun r hr => ha1 r (b6 r hr)) hne
          simp only [List.length_append]
          omega

/-! ## Receiving what a proper sender sends -/

/-- invariant of a connection: `ms` are the messages posted so far -/
structure Sim (s : Sys) (ms : List (List Byte)) : Prop where
  good : ∀ m ∈ ms, Good m
  sq : ∀ w ∈ s.sq, WrOk w
  split : ∃ rest, ms = s.rx.delivered ++ rest ∧ s.rx.buff.data ++ s.rx.inp ++ pendAll s.sq = rest.flatten
  buff : BuffOk s.rx.buff
  part : s.rx.rc = .ok → Incomplete s.rx.buff.data
  ub : s.rx.rc ≠ .ub

theorem init_sim : Sim Sys.init [] :=
  ⟨(fun m h => by cases h), (fun m h => by cases h), ⟨[], rfl, rfl⟩, ⟨by decide, by decide, by decide⟩,
    fun _ => .inl (by decide), by decide⟩

theorem post_sim (s : Sys) (ms : List (List Byte)) (h : Sim s ms) (w : Wr) (m : List Byte) (hw : WrOk w)
    (hp : pend w = m) (hm : Good m) : Sim { s with sq := s.sq ++ [w] } (ms ++ [m]) := by
  obtain ⟨rest, r1, r2⟩ := h.split
  refine ⟨?_, ?_, ⟨rest ++ [m], by simp [r1], ?_⟩, h.buff, h.part, h.ub⟩
  · intro x hx
    rcases List.mem_append.1 hx with hx | hx
    · exact h.good x hx
    · simp at hx; subst hx; exact hm
  · intro x hx
    rcases List.mem_append.1 hx with hx | hx
    · exact h.sq x hx
    · simp at hx; subst hx; exact hw
  · simp [pendAll, ← r2, hp]

theorem flush_sim (s : Sys) (ms : List (List Byte)) (h : Sim s ms) (rs : List SendRes) : Sim (flush s rs) ms := by
  unfold flush
  split
  · cases hs : sockWrite s.sq rs with
    | mk bs x =>
    obtain ⟨q, e⟩ := x
    obtain ⟨c1, c2, _⟩ := sockWrite_spec _ _ _ _ _ h.sq hs
    obtain ⟨rest, r1, r2⟩ := h.split
    refine ⟨h.good, c2, ⟨rest, r1, ?_⟩, h.buff, h.part, h.ub⟩
    simp only
    rw [← r2, ← c1]
    simp
  · exact h

theorem prefix_len {a b m t : List Byte} (h : a ++ b = m ++ t) (ha : 8 ≤ a.length) (hm : 8 ≤ m.length) :
    msgLen a = msgLen m ∧ msgType a = msgType m := by
  have h1 := msgLen_prefix a b ha
  have h2 := msgLen_prefix m t hm
  have h3 := msgType_prefix a b ha
  have h4 := msgType_prefix m t hm
  rw [h] at h1 h3
  exact ⟨by rw [← h1, h2], by rw [← h3, h4]⟩

theorem recv_sim (s : Sys) (ms : List (List Byte)) (h : Sim s ms) (r1 r2 : ReadRes) :
    Sim { s with rx := recvCall s.rx r1 r2 } ms ∧
    (r1 ≠ .eof ∧ r1 ≠ .err ∧ r2 ≠ .eof ∧ r2 ≠ .err → s.rx.rc = .ok → (recvCall s.rx r1 r2).rc = .ok) ∧
    ((∃ n, r1 = .got n) → (∃ n, r2 = .got n) → s.rx.rc = .ok → s.rx.inp ≠ [] →
      (recvCall s.rx r1 r2).inp.length < s.rx.inp.length) := by
  by_cases hrc : s.rx.rc = .ok
  · obtain ⟨rest, e1, e2⟩ := h.split
    have hg : ∀ m ∈ rest, Good m := fun m hm => h.good m (by rw [e1]; simp [hm])
    have hlen : ∀ d t, d ++ t = s.rx.buff.data ++ s.rx.inp → 20 ≤ d.length →
        ∃ m t', rest = m :: t' ∧ msgLen d = m.length ∧ msgType d = msgType m ∧
          d ++ (t ++ pendAll s.sq) = m ++ t'.flatten := by
      intro d t hdt hd
      cases rest with
      | nil =>
        rw [← hdt] at e2
        simp at e2
        rw [e2.1] at hd
        simp at hd
      | cons m t' =>
        have hgm := hg m (by simp)
        have he : d ++ (t ++ pendAll s.sq) = m ++ t'.flatten := by
          rw [← List.append_assoc, hdt, e2, List.flatten_cons]
        have hml := prefix_len he (by omega) (by have := hgm.hdr; omega)
        exact ⟨m, t', rfl, by rw [hml.1, hgm.len], hml.2, he⟩
    have hgm : ∀ m t', rest = m :: t' → Good m := fun m t' e => hg m (by rw [e]; simp)
    cases hm : recvMsg s.rx.buff s.rx.inp r1 r2 with
    | mk rc bi =>
    obtain ⟨b', inp'⟩ := bi
    have ho := recvMsg_out _ _ _ _ _ _ _ h.buff (h.part hrc) (by
      intro d t hdt hd
      obtain ⟨m, t', q1, q2, -, -⟩ := hlen d t hdt hd
      rw [q2]
      have := (hgm m t' q1).small
      unfold sockbufSz at this
      omega) hm
    have hnb : ¬ (20 ≤ b'.data.length ∧ TooBig b'.data) := by
      intro ⟨hl, hb⟩
      obtain ⟨m, t', q1, q2, q3, -⟩ := hlen _ _ ho.keep hl
      have hs := (hgm m t' q1).small
      unfold TooBig at hb
      rw [q2, q3] at hb
      rcases hs with hs | hs
      · omega
      · exact hb.1 hs.1
    have hkeep : b'.data ++ inp' ++ pendAll s.sq = rest.flatten := by rw [ho.keep, e2]
    unfold recvCall
    rw [hrc, hm]
    cases rc with
    | ok =>
      obtain ⟨g1, g2, g3⟩ := ho.room (by decide)
      obtain ⟨o1, o2, o3, o4⟩ := ho.ok rfl
      obtain ⟨m, t', q1, q2, q3, q4⟩ := hlen _ _ ho.keep o1
      have hG := hgm m t' q1
      have hl : b'.data.length = m.length := by rw [o2, q2]; have := hG.hdr; omega
      obtain ⟨hbm, hrest⟩ := List.append_inj q4 hl
      have hbc : badConnect b'.data = false := by rw [hbm]; exact hG.ok
      refine ⟨?_, fun _ _ => ?_, fun l1 l2 _ l4 => ho.live l1 l2 l4 (.inl rfl)⟩
      · simp only [hbc, Bool.false_eq_true, if_false]
        exact ⟨h.good, h.sq, ⟨t', by simp [e1, q1, hbm], by simp [hrest]⟩, ⟨by simp, g2, g3⟩,
          fun _ => .inl (by simp), by simp⟩
      · rfl
    | again =>
      obtain ⟨g1, g2, g3⟩ := ho.room (by decide)
      exact ⟨⟨h.good, h.sq, ⟨rest, e1, hkeep⟩, ⟨g1, g2, g3⟩, fun _ => ho.again rfl, by simp⟩, fun _ _ => rfl,
        fun l1 l2 _ l4 => ho.live l1 l2 l4 (.inr rfl)⟩
    | closed =>
      obtain ⟨g1, g2, g3⟩ := ho.room (by decide)
      refine ⟨⟨h.good, h.sq, ⟨rest, e1, hkeep⟩, ⟨g1, g2, g3⟩, (fun e => by cases e), by simp⟩, ?_, ?_⟩
      · intro ⟨n1, n2, n3, n4⟩ _
        exact absurd (ho.closed rfl) (by simp [n1, n3])
      · intro ⟨n, hn⟩ ⟨k, hk⟩
        exact absurd (ho.closed rfl) (by simp [hn, hk])
    | bad =>
      obtain ⟨g1, g2, g3⟩ := ho.room (by decide)
      refine ⟨⟨h.good, h.sq, ⟨rest, e1, hkeep⟩, ⟨g1, g2, g3⟩, (fun e => by cases e), by simp⟩, ?_, ?_⟩
      · intro ⟨n1, n2, n3, n4⟩ _
        exact absurd (ho.bad rfl) (by simp [n2, n4]; simpa using hnb)
      · intro ⟨n, hn⟩ ⟨k, hk⟩
        exact absurd (ho.bad rfl) (by simp [hn, hk]; simpa using hnb)
    | ub =>
      exfalso
      obtain ⟨u1, u2, u3⟩ := ho.ub rfl
      obtain ⟨m, t', q1, q2, q3, -⟩ := hlen _ _ ho.keep u1
      have hs := (hgm m t' q1).small
      unfold sockbufSz at hs
      rw [q2] at u2
      omega
  · have e : recvCall s.rx r1 r2 = s.rx := by
      unfold recvCall
      split
      · rename_i hh; exact absurd hh hrc
      · rfl
    rw [e]
    exact ⟨h, fun _ q => absurd q hrc, fun _ _ q => absurd q hrc⟩

theorem tooLong_refused (p : Pkt) : refused p = p.TooLong := by
  cases p <;> rfl

/-- the bytes of the posted messages -/
def wire (l : List (Nat × Nat × Pkt)) : List (List Byte) := l.map (fun x => encode x.1 x.2.1 x.2.2)

theorem posted_long (es : List Ev) : ∀ x ∈ posted es, x.2.2.TooLong = false := by
  induction es with
  | nil => intro x h; cases h
  | cons e es ih =>
    intro x h
    cases e with
    | post mp xid ctxt p rs =>
      simp only [posted] at h
      split at h
      · exact ih x h
      · rename_i hl
        rcases List.mem_cons.1 h with rfl | h
        · simpa using hl
        · exact ih x h
    | writable rs => exact ih x h
    | readable r1 r2 => exact ih x h

theorem run_sim : ∀ (es : List Ev) (s : Sys) (ms : List (List Byte)), Sim s ms → Honest es →
    Sim (run s es) (ms ++ wire (posted es)) := by
  intro es
  induction es with
  | nil => intro s ms h _; simpa [run, posted, wire] using h
  | cons e es ih =>
    intro s ms h hh
    cases e with
    | post mp xid ctxt p rs =>
      simp only [run, step, tooLong_refused]
      by_cases hl : p.TooLong = true
      · rw [if_pos hl]
        have : posted (.post mp xid ctxt p rs :: es) = posted es := by simp [posted, hl]
        rw [this]
        exact ih s ms h (by unfold Honest at hh ⊢; rw [this] at hh; exact hh)
      · rw [if_neg hl]
        have hpe : posted (.post mp xid ctxt p rs :: es) = (xid, ctxt, p) :: posted es := by simp [posted, hl]
        unfold Honest at hh
        rw [hpe] at hh ⊢
        obtain ⟨p1, p2, p3, p4⟩ := hh xid ctxt p (by simp)
        obtain ⟨w1, w2⟩ := mkWr_ok mp xid ctxt p
        have hs := flush_sim _ _ (post_sim s ms h _ _ w1 w2 (encode_good xid ctxt p p3 p4 (by simpa using hl))) rs
        have := ih _ _ hs (fun a b c hm => hh a b c (by simp [hm]))
        simpa [wire] using this
    | writable rs => exact ih _ _ (flush_sim s ms h rs) hh
    | readable r1 r2 => exact ih _ _ (recv_sim s ms h r1 r2).1 hh

theorem run_quiet : ∀ (es : List Ev) (s : Sys) (ms : List (List Byte)), Sim s ms → Honest es →
    (∀ e ∈ es, e.Quiet) → s.up = true → s.rx.rc = .ok → (run s es).up = true ∧ (run s es).rx.rc = .ok := by
  have hf : ∀ (s : Sys) (ms : List (List Byte)) (rs : List SendRes), Sim s ms → .err ∉ rs → s.up = true →
      s.rx.rc = .ok → (flush s rs).up = true ∧ (flush s rs).rx.rc = .ok := by
    intro s ms rs h hr hu ho
    unfold flush
    rw [if_pos hu]
    cases hs : sockWrite s.sq rs with
    | mk bs x =>
    obtain ⟨q, e⟩ := x
    obtain ⟨_, _, _, c4, _⟩ := sockWrite_spec _ _ _ _ _ h.sq hs
    exact ⟨by simp; exact fun he => hr (c4 he), ho⟩
  intro es
  induction es with
  | nil => intro s ms _ _ _ hu ho; exact ⟨hu, ho⟩
  | cons e es ih =>
    intro s ms h hh hq hu ho
    have hqe := hq e (by simp)
    have hqs : ∀ e ∈ es, e.Quiet := fun x hx => hq x (by simp [hx])
    cases e with
    | post mp xid ctxt p rs =>
      simp only [run, step, tooLong_refused]
      by_cases hl : p.TooLong = true
      · rw [if_pos hl]
        have : posted (.post mp xid ctxt p rs :: es) = posted es := by simp [posted, hl]
        exact ih s ms h (by unfold Honest at hh ⊢; rw [this] at hh; exact hh) hqs hu ho
      · rw [if_neg hl]
        have hpe : posted (.post mp xid ctxt p rs :: es) = (xid, ctxt, p) :: posted es := by simp [posted, hl]
        unfold Honest at hh
        rw [hpe] at hh
        obtain ⟨p1, p2, p3, p4⟩ := hh xid ctxt p (by simp)
        obtain ⟨w1, w2⟩ := mkWr_ok mp xid ctxt p
        have hs0 := post_sim s ms h _ _ w1 w2 (encode_good xid ctxt p p3 p4 (by simpa using hl))
        have hs := flush_sim _ _ hs0 rs
        obtain ⟨f1, f2⟩ := hf _ _ rs hs0 hqe hu ho
        exact ih _ _ hs (fun a b c hm => hh a b c (by simp [hm])) hqs f1 f2
    | writable rs =>
      obtain ⟨f1, f2⟩ := hf s ms rs h hqe hu ho
      exact ih _ _ (flush_sim s ms h rs) hh hqs f1 f2
    | readable r1 r2 =>
      obtain ⟨g1, g2, g3⟩ := recv_sim s ms h r1 r2
      exact ih _ _ g1 hh hqs hu (g2 hqe ho)

/-- when nothing is left on the way, everything has been delivered -/
theorem sim_done (s : Sys) (ms : List (List Byte)) (h : Sim s ms) (ho : s.rx.rc = .ok) (hs : s.sq = [])
    (hi : s.rx.inp = []) : s.rx.delivered = ms := by
  obtain ⟨rest, e1, e2⟩ := h.split
  have hp := h.part ho
  rw [hs, hi] at e2
  simp only [pendAll, List.map_nil, List.flatten_nil, List.append_nil] at e2
  cases rest with
  | nil => simp [e1]
  | cons m t =>
    exfalso
    have hG := h.good m (by simp [e1])
    have hdr := hG.hdr
    rw [List.flatten_cons] at e2
    have hl : m.length ≤ s.rx.buff.data.length := by rw [e2]; simp
    have := prefix_len (a := s.rx.buff.data) (b := []) (m := m) (t := t.flatten)
      (by rw [List.append_nil]; exact e2) (by omega) (by omega)
    rcases hp with hp | hp
    · omega
    · rw [this.1, hG.len] at hp; omega

theorem drain_reads : ∀ (rds : List (Nat × Nat)) (s : Sys) (ms : List (List Byte)), Sim s ms → s.rx.rc = .ok →
    s.rx.inp.length ≤ rds.length → s.sq = [] →
    (run s (rds.map (fun x => .readable (.got x.1) (.got x.2)))).rx.delivered = ms := by
  intro rds
  induction rds with
  | nil =>
    intro s ms h ho hl hs
    exact sim_done s ms h ho hs (List.length_eq_zero_iff.1 (by simpa using hl))
  | cons x rds ih =>
    intro s ms h ho hl hs
    obtain ⟨g1, g2, g3⟩ := recv_sim s ms h (.got x.1) (.got x.2)
    simp only [List.map_cons, run, step]
    refine ih _ _ g1 (g2 (by simp) ho) ?_ hs
    simp only
    by_cases hi : s.rx.inp = []
    · obtain ⟨b, hb⟩ : ∃ b : Nat, b = (recvCall s.rx (.got x.1) (.got x.2)).inp.length := ⟨_, rfl⟩
      have hk : (recvCall s.rx (.got x.1) (.got x.2)).inp.length = 0 := by
        obtain ⟨rest, e1, e2⟩ := h.split
        obtain ⟨rest', e1', e2'⟩ := g1.split
        have hd := sim_done s ms h ho hs hi
        rw [hd] at e1
        have : rest = [] := by simpa using e1
        subst this
        obtain ⟨l, hl'⟩ := recvCall_delivered s.rx (.got x.1) (.got x.2)
        simp only at e1' e2'
        rw [hl', hd] at e1'
        have : rest' = [] := by
          have hh := congrArg List.length e1'
          simp only [List.length_append] at hh
          exact List.length_eq_zero_iff.1 (by omega)
        subst this
        simp at e2'
        simp [e2'.2.1]
      omega
    · have := g3 ⟨_, rfl⟩ ⟨_, rfl⟩ ho hi
      simp only [List.length_cons] at hl
      omega

theorem drain_writes (s : Sys) (ms : List (List Byte)) (h : Sim s ms) (hu : s.up = true) (rs : List SendRes)
    (ha : AllSent rs) (hl : (pendAll s.sq).length < rs.length) :
    (flush s rs).sq = [] ∧ (flush s rs).rx.inp.length = s.rx.inp.length + (pendAll s.sq).length := by
  unfold flush
  rw [if_pos hu]
  cases hs : sockWrite s.sq rs with
  | mk bs x =>
  obtain ⟨q, e⟩ := x
  obtain ⟨c1, c2, c3, c4, c5⟩ := sockWrite_spec _ _ _ _ _ h.sq hs
  have hlen := congrArg List.length c1
  rw [List.length_append] at hlen
  have he : e = .drained := Classical.byContradiction (fun hne => by
    have := c5 ha hne
    omega)
  have hq := c3 he
  subst hq
  simp [pendAll] at hlen ⊢
  exact hlen

end Verif.ZapFrame
