import Verif.ZapIo.Progress

/-!
# C54: every accepted operation completes exactly once, in order, with its own context

Ranges over every history of a connected socket endpoint: posts from any thread, partial and complete
writes, answers of a peer that runs the same code, closes, and a loss of the connection at any moment.
-/

namespace Verif.ZapIo

/-! ### Specification -/

/-- the operations a list of events completes, with their kinds and contexts -/
def completed : List Event → List (Nat × Kind × Nat)
  | [] => []
  | .comp id k c _ :: l => (id, k, c) :: completed l
  | .disconnected :: l => completed l

/-- the sends of a list of operations -/
def sendsOf (l : List (Nat × Kind × Nat)) : List (Nat × Kind × Nat) :=
  l.filter (fun o => o.2.1 = .send ∨ o.2.1 = .sendMapped)

/-- the reads and writes of a list of operations -/
def rdmaOf (l : List (Nat × Kind × Nat)) : List (Nat × Kind × Nat) :=
  l.filter (fun o => o.2.1 = .read ∨ o.2.1 = .write)

/-- a state some history leads to -/
def Reachable (s : S) : Prop := ∃ es, run init es = some s

/-! ### Links to the proofs -/

theorem completed_eq (l : List Event) : completed l = l.filterMap Event.key := by
  induction l with
  | nil => rfl
  | cons e l ih => cases e <;> simp [completed, Event.key, List.filterMap_cons, ih]

theorem sendsOf_eq (l : List (Nat × Kind × Nat)) : sendsOf l = l.filter sd := by
  unfold sendsOf
  congr 1
  funext o
  obtain ⟨i, k, c⟩ := o
  cases k <;> simp [sd, Kind.rdma]

theorem rdmaOf_eq (l : List (Nat × Kind × Nat)) : rdmaOf l = l.filter rd := by
  unfold rdmaOf
  congr 1
  funext o
  obtain ⟨i, k, c⟩ := o
  cases k <;> simp [rd, Kind.rdma]

theorem reach_inv {s : S} (h : Reachable s) : Inv s := by
  obtain ⟨es, he⟩ := h
  exact inv_of_run he

theorem perm_split (l : List Key) : (l.filter sd ++ l.filter rd).Perm l := by
  have h := List.filter_append_perm (fun k => sd k) l
  have : l.filter (fun k => !sd k) = l.filter rd := by
    congr 1; funext k; simp [sd_not_rd]
  rw [this] at h
  exact h

theorem perm_of_empty (s : S) (h : Inv s) (h1 : s.ioq = []) (h2 : s.iocq = []) :
    (completed s.log).Perm s.accepted := by
  rw [completed_eq]
  have a := h.sends
  have b := h.rdmas
  simp only [h1, h2, List.map_nil, List.filter_nil, List.append_nil] at a b
  refine (perm_split _).symm.trans ?_
  rw [a, b]
  exact perm_split _

theorem acc_nodup (s : S) (h : Inv s) : (s.accepted.map (·.1)).Nodup := by
  rw [h.fresh]
  exact List.nodup_range

/-! ### Theorems -/

/-- **A response always finds its operation.**  Whatever the history, the handlers of responses never
find the queue empty or an operation with another context: nothing crashes.  Partial: the peer answers
each request once and in order, as the same code does; see `stray_response_defect`. -/
theorem never_crashes_partial (es : List Ev) : ∃ s, run init es = some s := by
  obtain ⟨s, h, _⟩ := inv_run es init inv_init
  exact ⟨s, h⟩

/-- **In order.**  Sends complete in the order in which they were posted, and so do reads and writes:
the completions of each class are an initial part of the accepted operations of that class.  Each
completion carries the kind and the context of its own operation. -/
theorem completes_in_order (s : S) (h : Reachable s) :
    sendsOf (completed s.log) <+: sendsOf s.accepted ∧ rdmaOf (completed s.log) <+: rdmaOf s.accepted := by
  have hi := reach_inv h
  rw [sendsOf_eq, sendsOf_eq, rdmaOf_eq, rdmaOf_eq, completed_eq, ← hi.sends, ← hi.rdmas]
  exact ⟨by rw [List.append_assoc]; exact List.prefix_append _ _, List.prefix_append _ _⟩

/-- **At most once.**  No operation completes twice, and only accepted operations complete. -/
theorem at_most_once (s : S) (h : Reachable s) :
    ((completed s.log).map (·.1)).Nodup ∧ ∀ o ∈ completed s.log, o ∈ s.accepted := by
  have hi := reach_inv h
  obtain ⟨h1, h2⟩ := completes_in_order s h
  rw [sendsOf_eq, sendsOf_eq] at h1
  rw [rdmaOf_eq, rdmaOf_eq] at h2
  have hsub := (h1.sublist.append h2.sublist).map (·.1)
  have hp := (perm_split s.accepted).map (·.1)
  have hn := hp.nodup_iff.mpr (acc_nodup s hi)
  have hc := hsub.nodup hn
  have hq := (perm_split (completed s.log)).map (·.1)
  refine ⟨hq.nodup_iff.mp hc, ?_⟩
  intro o ho
  have ho' := (perm_split (completed s.log)).mem_iff.mpr ho
  exact (perm_split s.accepted).mem_iff.mp ((h1.sublist.append h2.sublist).subset ho')

/-- **The end of a connection.**  Once `DISCONNECTED` has been delivered, every operation that was
accepted has completed (exactly once), `DISCONNECTED` was the last event and came once, and nothing is
delivered or accepted any more, whatever happens later. -/
theorem disconnected_is_final (s : S) (h : Reachable s) (hd : Event.disconnected ∈ s.log) :
    (completed s.log).Perm s.accepted ∧
    (∃ l, s.log = l ++ [.disconnected] ∧ Event.disconnected ∉ l) ∧
    ∀ es t, run s es = some t → t.log = s.log ∧ t.accepted = s.accepted := by
  have hi := reach_inv h
  have hdn := hi.disc hd
  obtain ⟨h1, h2, _, h3⟩ := hi.down hdn
  refine ⟨perm_of_empty s hi h1 h2, h3, ?_⟩
  intro es t hr
  have := down_run es s t hi hdn hr
  exact ⟨this.log, this.acc⟩

/-- **No operation is lost with the connection.**  At any moment of any history the connection may be
lost; finitely many rounds of the io thread then complete every accepted operation and deliver
`DISCONNECTED`. -/
theorem loss_completes_everything (s : S) (h : Reachable s) (hd : Event.disconnected ∉ s.log) :
    ∃ n m t, run s (.hup :: (List.replicate n .complete ++ List.replicate m .teardown)) = some t ∧
      Event.disconnected ∈ t.log ∧ (completed t.log).Perm t.accepted := by
  have hi := reach_inv h
  have hp : s.phase ≠ .down := by
    intro hdn
    obtain ⟨_, _, _, l, hl, _⟩ := hi.down hdn
    exact hd (by rw [hl]; simp)
  obtain ⟨t, ht, hdn⟩ := reach_down s hp
  have hit := inv_run_of _ _ _ hi ht
  obtain ⟨h1, h2, _, l, hl, _⟩ := hit.down hdn
  exact ⟨_, _, t, ht, by rw [hl]; simp, perm_of_empty t hit h1 h2⟩

/-- **A healthy connection completes everything.**  While the connection is up and not closed, writing
what is queued, letting the peer answer, and handling the answers completes every accepted operation,
none of the new completions being a flush. -/
theorem healthy_completes_everything (s : S) (h : Reachable s) (hp : s.phase = .live)
    (hc : s.st = .connected) :
    ∃ (a b c d : Nat) (t : S), run s (List.replicate a .written ++ (List.replicate b (.peer 0 0) ++
      (List.replicate c .recv ++ List.replicate d .complete))) = some t ∧
      (completed t.log).Perm t.accepted ∧ t.accepted = s.accepted ∧
      ∀ i k c, Event.comp i k c .flush ∉ t.log := by
  have hi := reach_inv h
  obtain ⟨a, b, c, d, t, h1, h2, h3, h4, h5⟩ := quiesce s hi hp hc
  refine ⟨a, b, c, d, t, h1, perm_of_empty t (inv_run_of _ _ _ hi h1) h2 h3, h5, ?_⟩
  intro i k c hm
  obtain ⟨es, he⟩ := h
  have hf := flush_phase es init s (by intro _; rfl) inv_init he hp
  rw [hf] at h4
  have : Event.comp i k c .flush ∈ flushes t.log := by
    unfold flushes
    rw [List.mem_filter]
    exact ⟨hm, rfl⟩
  rw [h4] at this
  cases this

/-- **A status means what it says.**  A read or write that completes without being flushed carries the
status the peer answered to that very request, and the peer answers each request once; a send that
completes without being flushed has status `ZAP_ERR_OK`.  In all cases the message of the operation had
been handed to the socket completely. -/
theorem status_is_true (s : S) (h : Reachable s) (i : Nat) (k : Kind) (c st : Nat)
    (he : Event.comp i k c (.done st) ∈ s.log) :
    i ∈ s.wrote ∧
    (k = .send ∨ k = .sendMapped → st = 0) ∧
    (k = .read ∨ k = .write → (i, st) ∈ s.answers ∧ ∀ st', (i, st') ∈ s.answers → st' = st) := by
  have hi := reach_inv h
  refine ⟨hi.wr i k c st he, ?_, ?_⟩
  · rintro (hk | hk) <;> exact (hi.logAns i k c st he).2 (by rw [hk]; rfl)
  · intro hk
    have hr : k.rdma = true := by rcases hk with hk | hk <;> rw [hk] <;> rfl
    have ha := (hi.logAns i k c st he).1 hr
    refine ⟨ha, ?_⟩
    intro st' hb
    have hn : (s.answers.map (·.1)).Nodup := by
      have h1 := hi.ans
      have h2 : ((s.accepted.filter rd).map (·.1)).Nodup :=
        (List.filter_sublist.map _).nodup (acc_nodup s hi)
      rw [← h1, List.append_assoc] at h2
      exact (List.nodup_append.mp h2).1
    have hfun : ∀ l : List (Nat × Nat), (l.map (·.1)).Nodup → (i, st) ∈ l → (i, st') ∈ l → st' = st := by
      intro l
      induction l with
      | nil => intro _ h; cases h
      | cons a l ih =>
        intro hn h1 h2
        simp only [List.map_cons, List.nodup_cons] at hn
        rcases List.mem_cons.mp h1 with h1 | h1 <;> rcases List.mem_cons.mp h2 with h2 | h2
        · rw [← h1] at h2; exact (Prod.mk.inj h2).2
        · exact absurd (by rw [← h1]; exact List.mem_map.mpr ⟨_, h2, rfl⟩) hn.1
        · exact absurd (by rw [← h2]; exact List.mem_map.mpr ⟨_, h1, rfl⟩) hn.1
        · exact ih hn.2 h1 h2
    exact hfun _ hn ha hb

/-- **Flushes only after a loss.**  While the io thread still serves the connection, no operation has
been completed as flushed. -/
theorem flush_means_lost (s : S) (h : Reachable s) (i : Nat) (k : Kind) (c : Nat)
    (he : Event.comp i k c .flush ∈ s.log) : s.phase ≠ .live := by
  intro hp
  obtain ⟨es, hes⟩ := h
  have hf := flush_phase es init s (by intro _; rfl) inv_init hes hp
  have : Event.comp i k c .flush ∈ flushes s.log := by
    unfold flushes; rw [List.mem_filter]; exact ⟨he, rfl⟩
  rw [hf] at this
  cases this

/-- **Transaction ids agree.**  When a response is handled, the operation it completes has the same
kind, context and transaction id.  Partial: an id of zero, which the 32-bit counter reaches when it
wraps, comes back as another id; see `xid_zero_defect`. -/
theorem response_matches_partial (s : S) (h : Reachable s) (hp : s.phase = .live) (t : Nat) (k : Kind)
    (x c st : Nat) (q : List Msg) (hq : s.inn = .resp t k x c st :: q) :
    ∃ io r, s.ioq = io :: r ∧ io.id = t ∧ io.kind = k ∧ io.ctxt = c ∧ (io.xid ≠ 0 → io.xid = x) := by
  have hi := reach_inv h
  obtain ⟨es, he⟩ := h
  have hx := xinv_run es init s inv_init xinv_init he
  obtain ⟨io, r, hr, hk⟩ := head_of s hi hp hq
  simp only [Io.key, Prod.mk.injEq] at hk
  refine ⟨io, r, hr, hk.1, hk.2.1, hk.2.2, ?_⟩
  exact hx.resp hp io (by simp [hr]) t k x c st (by simp [hq]) hk.1

/-- **The id of a request is remembered.**  The operation whose request is on the way to the peer holds
the transaction id in that request. -/
theorem request_id_recorded (s : S) (h : Reachable s) (hp : s.phase = .live) (t : Nat) (k : Kind)
    (x c : Nat) (hm : Msg.req t k x c ∈ s.out) :
    (∃ io ∈ s.ioq, io.id = t) ∧ ∀ io ∈ s.ioq, io.id = t → io.xid = x := by
  have hi := reach_inv h
  obtain ⟨es, he⟩ := h
  have hx := xinv_run es init s inv_init xinv_init he
  refine ⟨?_, fun io hio hid => hx.req hp io hio t k x c hm hid⟩
  have hk : (t, k, c) ∈ s.ioq.map Io.key := by
    rw [hi.queue hp]
    exact List.mem_append_left _ (req_flight hm)
  obtain ⟨io, hio, he⟩ := List.mem_map.mp hk
  exact ⟨io, hio, congrArg Prod.fst he⟩

/-- **Operations are refused exactly when the endpoint is not connected.** -/
theorem refused_unless_connected (s : S) (k : Kind) (c x : Nat) :
    ((post s k c x).accepted ≠ s.accepted ↔ s.st = .connected) ∧
    (s.st ≠ .connected → post s k c x = s) := by
  unfold post
  constructor
  · constructor
    · intro h
      apply Classical.byContradiction
      intro hc
      simp [hc] at h
    · intro hc h
      simp only [hc, if_true] at h
      have := congrArg List.length h
      simp at this
  · intro hc
    simp [hc]

/-! ### Defects -/

/-- A write with transaction id zero (the counter wraps after 2^32 messages) is answered under another
id: the sanity check of ids in the response handler complains (a build with `DEBUG` aborts) although
the response is right. -/
theorem xid_zero_defect :
    ∃ es s io r q, run init es = some s ∧ s.ioq = io :: r ∧
      s.inn = .resp io.id io.kind 5 io.ctxt 0 :: q ∧ io.xid ≠ 5 :=
  ⟨[.post .write 9 0, .written, .peer 0 5], _, _, _, _, rfl, rfl, rfl, by decide⟩

/-- When the connection is lost while something is still to be written, the queue of work requests is
never emptied and nobody is woken: `zap_close` in a thread of the application waits forever, even if it
is called after `DISCONNECTED`. -/
theorem close_hangs_defect :
    ∃ es s, run init es = some s ∧ Event.disconnected ∈ s.log ∧
      ∀ fs t, run s fs = some t → t.sq ≠ [] ∧ close t false = t := by
  refine ⟨[.post .send 1 1, .hup, .teardown, .teardown], _, rfl, by decide, ?_⟩
  intro fs t h
  have hi : Inv _ := inv_of_run (es := [.post .send 1 1, .hup, .teardown, .teardown]) rfl
  obtain ⟨l, hl⟩ := (down_run fs _ t hi rfl h).sq
  have hne : t.sq ≠ [] := by
    rw [hl]
    intro hc
    cases hc
  refine ⟨hne, ?_⟩
  simp [close, hne]

/-- A peer that sends a response nobody asked for crashes the endpoint (null pointer). -/
theorem stray_response_defect (t : Nat) (k : Kind) (x c st : Nat) :
    step { init with inn := [.resp t k x c st] } .recv = none := rfl

/-! ### The hypotheses are met -/

/-- a send, a read and a write, the send completing last; then the connection is lost with one more
send queued and a write on the way -/
def sample : List Ev :=
  [.post .read 10 1, .post .send 11 2, .post .write 12 3, .written, .written, .written, .peer 0 0,
   .peer 0 0, .peer 7 0, .recv, .recv, .complete, .post .write 13 4, .written, .post .sendMapped 14 5,
   .hup, .post .read 15 6, .teardown, .teardown, .teardown, .teardown]

example : (run init sample).map (·.log) = some
    [.comp 0 .read 10 (.done 0), .comp 2 .write 12 (.done 7), .comp 1 .send 11 (.done 0),
     .comp 3 .write 13 .flush, .comp 4 .sendMapped 14 .flush, .comp 5 .read 15 .flush,
     .disconnected] := by decide

example : ∃ s, Reachable s ∧ Event.disconnected ∈ s.log ∧ s.accepted.length = 6 :=
  ⟨_, ⟨sample, rfl⟩, by decide, by decide⟩

example : ∃ s, Reachable s ∧ s.phase = .live ∧ s.st = .connected ∧ s.accepted.length = 3 ∧
    s.log = [] ∧ ∃ q, s.inn = .resp 0 .read 1 10 0 :: q :=
  ⟨_, ⟨[.post .read 10 1, .post .send 11 2, .post .write 12 3, .written, .written, .peer 0 0], rfl⟩,
    by decide, by decide, by decide, by decide, _, rfl⟩

example : ∃ s, Reachable s ∧ s.phase = .live ∧ Msg.req 1 .write 3 12 ∈ s.out :=
  ⟨_, ⟨[.post .read 10 1, .post .write 12 3, .written, .written], rfl⟩, by decide, by decide⟩

end Verif.ZapIo
