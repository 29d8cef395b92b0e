import Verif.ZapIo.Model

/-! Invariants of the queues. -/

namespace Verif.ZapIo

abbrev Key := Nat × Kind × Nat

def Io.key (io : Io) : Key := (io.id, io.kind, io.ctxt)

def rd (k : Key) : Bool := k.2.1.rdma
def sd (k : Key) : Bool := !k.2.1.rdma

def Msg.respKey : Msg → Option Key
  | .resp t k _ c _ => some (t, k, c)
  | _ => none

def Msg.reqKey : Msg → Option Key
  | .req t k _ c => some (t, k, c)
  | _ => none

def Event.key : Event → Option Key
  | .comp id k c _ => some (id, k, c)
  | .disconnected => none

/-- operations whose request is at the peer or on the way, oldest first -/
def flight (s : S) : List Key := s.inn.filterMap Msg.respKey ++ s.out.filterMap Msg.reqKey

def sqk (s : S) : List Key := s.sq.filterMap Wr.io

structure Inv (s : S) : Prop where
  queue : s.phase = .live → s.ioq.map Io.key = flight s ++ sqk s
  fl : ∀ k ∈ flight s, rd k = true
  cq : ∀ io ∈ s.iocq, io.kind.rdma = false
  fresh : s.accepted.map (·.1) = List.range s.next
  sends : (s.log.filterMap Event.key).filter sd ++ s.iocq.map Io.key ++ (s.ioq.map Io.key).filter sd
    = s.accepted.filter sd
  rdmas : (s.log.filterMap Event.key).filter rd ++ (s.ioq.map Io.key).filter rd = s.accepted.filter rd
  ans : s.answers.map (·.1) ++ (s.out.filterMap Msg.reqKey).map (·.1) ++ ((sqk s).filter rd).map (·.1)
    = (s.accepted.filter rd).map (·.1)
  inAns : ∀ t k x c st, Msg.resp t k x c st ∈ s.inn → (t, st) ∈ s.answers
  logAns : ∀ t k c st, Event.comp t k c (.done st) ∈ s.log →
    (k.rdma = true → (t, st) ∈ s.answers) ∧ (k.rdma = false → st = 0)
  disc : Event.disconnected ∈ s.log → s.phase = .down
  down : s.phase = .down → s.ioq = [] ∧ s.iocq = [] ∧ s.st ≠ .connected ∧
    ∃ l, s.log = l ++ [.disconnected] ∧ Event.disconnected ∉ l
  wr : ∀ t k c st, Event.comp t k c (.done st) ∈ s.log → t ∈ s.wrote
  cqw : ∀ io ∈ s.iocq, io.id ∈ s.wrote
  answ : ∀ p ∈ s.answers, p.1 ∈ s.wrote
  outw : ∀ k ∈ s.out.filterMap Msg.reqKey, k.1 ∈ s.wrote
  sub : (s.ioq.map Io.key).Sublist s.accepted

theorem inv_init : Inv init := by
  constructor <;> simp [init, flight, sqk]

theorem inv_post (s : S) (h : Inv s) (k : Kind) (c x : Nat) : Inv (post s k c x) := by
  unfold post
  split
  · rename_i hc
    obtain ⟨h1, h2, h3, h4, h5, h6, h7, h8, h9, h10, h11, h12, h13, h14, h15, h16⟩ := h
    have hnd : s.phase ≠ .down := fun hd => (h11 hd).2.2.1 hc
    constructor <;> try assumption
    · intro hl
      have := h1 hl
      simp_all [flight, sqk, List.filterMap_append, Io.key]
    · simp [h4, List.range_succ]
    · simp only [List.map_append, List.filter_append, ← h5, List.append_assoc]
      simp [Io.key]
    · simp only [List.map_append, List.filter_append, ← h6, List.append_assoc]
      simp [Io.key]
    · simp only [List.filter_append, List.map_append, ← h7, sqk, List.filterMap_append, List.append_assoc]
      congr
    · intro hd; exact absurd hd hnd
    · simp only [List.map_append]
      exact List.Sublist.append h16 (List.Sublist.refl _)
  · exact h

theorem inv_postOther (s : S) (h : Inv s) : Inv { s with sq := s.sq ++ [⟨none, 1⟩] } := by
  obtain ⟨h1, h2, h3, h4, h5, h6, h7, h8, h9, h10, h11, h12, h13, h14, h15, h16⟩ := h
  constructor <;> try assumption
  · intro hl; have := h1 hl; simpa [flight, sqk] using this
  · simpa [sqk] using h7

theorem inv_peerOther (s : S) (h : Inv s) : Inv { s with inn := s.inn ++ [.other] } := by
  obtain ⟨h1, h2, h3, h4, h5, h6, h7, h8, h9, h10, h11, h12, h13, h14, h15, h16⟩ := h
  constructor <;> try assumption
  · intro hl; have := h1 hl; simpa [flight, sqk, Msg.respKey, List.filterMap_cons] using this
  · simpa [flight, Msg.respKey, List.filterMap_cons] using h2
  · intro t k x c st hm
    apply h8 t k x c st
    simpa using hm

theorem inv_complete (s : S) (h : Inv s) : Inv (complete s) := by
  unfold complete
  split
  · exact h
  · rename_i hd
    split
    · exact h
    · rename_i io q hq
      obtain ⟨h1, h2, h3, h4, h5, h6, h7, h8, h9, h10, h11, h12, h13, h14, h15, h16⟩ := h
      have hk : io.kind.rdma = false := h3 io (by simp [hq])
      constructor <;> try assumption
      · intro i hi; exact h3 i (by simp [hq, hi])
      · simp only [hq, List.map_cons] at h5
        simp [Event.key, ← h5, sd, hk, Io.key]
      · simpa [Event.key, rd, hk] using h6
      · intro t k c st hm
        simp only [List.mem_append, List.mem_singleton] at hm
        rcases hm with hm | hm
        · exact h9 t k c st hm
        · cases hm
          simp [hk]
      · intro hm
        exact h10 (by simpa using hm)
      · intro hd'; exact absurd hd' hd
      · intro t k c st hm
        simp only [List.mem_append, List.mem_singleton] at hm
        rcases hm with hm | hm
        · exact h12 t k c st hm
        · cases hm
          exact h13 io (by simp [hq])
      · intro i hi; exact h13 i (by simp [hq, hi])

theorem inv_hup (s : S) (h : Inv s) : Inv (hup s) := by
  unfold hup
  split
  · rename_i hl
    obtain ⟨h1, h2, h3, h4, h5, h6, h7, h8, h9, h10, h11, h12, h13, h14, h15, h16⟩ := h
    constructor <;> try assumption
    · intro h; cases h
    · intro hm; have := h10 hm; rw [hl] at this; cases this
    · intro h; cases h
  · exact h

theorem inv_close (s : S) (h : Inv s) (b : Bool) : Inv (close s b) := by
  unfold close
  split
  · exact h
  · obtain ⟨h1, h2, h3, h4, h5, h6, h7, h8, h9, h10, h11, h12, h13, h14, h15, h16⟩ := h
    constructor <;> try assumption
    intro hd
    obtain ⟨a, b, _, d⟩ := h11 hd
    exact ⟨a, b, (fun h => by cases h), d⟩

theorem sd_not_rd (k : Key) : sd k = !rd k := rfl

theorem inv_teardown (s : S) (h : Inv s) : Inv (teardown s) := by
  unfold teardown
  split
  · rename_i hc
    obtain ⟨hp, hcq⟩ := hc
    obtain ⟨h1, h2, h3, h4, h5, h6, h7, h8, h9, h10, h11, h12, h13, h14, h15, h16⟩ := h
    split
    · rename_i io q hq
      constructor <;> try assumption
      · intro hl; rw [hp] at hl; cases hl
      · simp only [hq, hcq] at h5 ⊢
        rw [← h5]
        by_cases hk : sd io.key <;> simp [Event.key, List.filter_cons, Io.key] at hk ⊢ <;> simp [hk]
      · simp only [hq] at h6 ⊢
        rw [← h6]
        by_cases hk : rd io.key <;> simp [Event.key, List.filter_cons, Io.key] at hk ⊢ <;> simp [hk]
      · intro t k c st hm
        simp only [List.mem_append, List.mem_singleton] at hm
        rcases hm with hm | hm
        · exact h9 t k c st hm
        · cases hm
      · intro hm; exact h10 (by simpa using hm)
      · intro hd; rw [hp] at hd; cases hd
      · intro t k c st hm
        simp only [List.mem_append, List.mem_singleton] at hm
        rcases hm with hm | hm
        · exact h12 t k c st hm
        · cases hm
      · rw [hq] at h16
        exact (List.sublist_cons_self _ _).trans h16
    · rename_i hq
      constructor <;> try assumption
      · intro hl; cases hl
      · simpa [Event.key, List.filterMap_cons] using h5
      · simpa [Event.key, List.filterMap_cons] using h6
      · intro t k c st hm
        apply h9 t k c st
        simpa using hm
      · intro _; rfl
      · intro _
        refine ⟨hq, hcq, ?_, s.log, rfl, ?_⟩
        · dsimp only
          split
          · simp
          · assumption
        · intro hm; have := h10 hm; rw [hp] at this; cases this
      · intro t k c st hm
        apply h12 t k c st
        simpa using hm
  · exact h

theorem inv_peer (s : S) (h : Inv s) (st f : Nat) : Inv (peer s st f) := by
  unfold peer
  obtain ⟨h1, h2, h3, h4, h5, h6, h7, h8, h9, h10, h11, h12, h13, h14, h15, h16⟩ := h
  split
  · constructor <;> assumption
  · rename_i t k x c q hq
    constructor <;> try assumption
    · intro hl
      have := h1 hl
      simpa [flight, sqk, hq, Msg.respKey, Msg.reqKey] using this
    · simpa [flight, hq, Msg.respKey, Msg.reqKey] using h2
    · simpa [hq, Msg.reqKey, sqk] using h7
    · intro t' k' x' c' st' hm
      simp only [List.mem_append, List.mem_singleton] at hm ⊢
      rcases hm with hm | hm
      · exact Or.inl (h8 _ _ _ _ _ hm)
      · cases hm; exact Or.inr rfl
    · intro t' k' c' st' hm
      refine ⟨fun hk => ?_, (h9 t' k' c' st' hm).2⟩
      have := (h9 t' k' c' st' hm).1 hk
      simp [this]
    · intro p hp
      simp only [List.mem_append, List.mem_singleton] at hp
      rcases hp with hp | hp
      · exact h14 p hp
      · subst hp
        exact h15 (t, k, c) (by simp [hq, Msg.reqKey])
    · intro k' hk'
      apply h15 k'
      simp only [hq, List.filterMap_cons, Msg.reqKey]
      exact List.mem_cons_of_mem _ hk'
  · rename_i m q hne hq
    have hm : Msg.reqKey m = none := by
      cases m with
      | req t k x c => exact absurd rfl (hne t k x c)
      | resp => rfl
      | other => rfl
    constructor <;> try assumption
    · intro hl
      have := h1 hl
      simpa [flight, sqk, hq, hm] using this
    · simpa [flight, hq, hm] using h2
    · simpa [hq, hm, sqk] using h7
    · simpa [hq, hm] using h15

theorem key_fst_nodup (s : S) (h : Inv s) : ((s.ioq.map Io.key).map (·.1)).Nodup := by
  have h1 := h.sub.map (·.1)
  rw [h.fresh] at h1
  exact h1.nodup List.nodup_range

theorem ids_ne {l r : List Key} {k : Key} (h : ((l ++ k :: r).map (·.1)).Nodup) :
    (∀ a ∈ l, a.1 ≠ k.1) ∧ (∀ a ∈ r, a.1 ≠ k.1) := by
  simp only [List.map_append, List.map_cons, List.nodup_append, List.nodup_cons] at h
  obtain ⟨_, ⟨h1, _⟩, h2⟩ := h
  constructor
  · intro a ha he
    exact h2 a.1 (List.mem_map_of_mem ha) k.1 (by simp) he
  · intro a ha he
    apply h1
    rw [← he]
    exact List.mem_map_of_mem ha

theorem filter_eq_mid {l r : List Key} {k : Key} (h : ((l ++ k :: r).map (·.1)).Nodup) :
    (l ++ k :: r).filter (fun a => decide (a.1 = k.1)) = [k] := by
  obtain ⟨h1, h2⟩ := ids_ne h
  have e1 : l.filter (fun a => decide (a.1 = k.1)) = [] := by
    rw [List.filter_eq_nil_iff]; intro a ha; simpa using h1 a ha
  have e2 : r.filter (fun a => decide (a.1 = k.1)) = [] := by
    rw [List.filter_eq_nil_iff]; intro a ha; simpa using h2 a ha
  simp [e1, e2, List.filter_append]

theorem filter_ne_mid {l r : List Key} {k : Key} (h : ((l ++ k :: r).map (·.1)).Nodup) :
    (l ++ k :: r).filter (fun a => decide (a.1 ≠ k.1)) = l ++ r := by
  obtain ⟨h1, h2⟩ := ids_ne h
  have e1 : l.filter (fun a => decide (a.1 ≠ k.1)) = l := by
    rw [List.filter_eq_self]; intro a ha; simpa using h1 a ha
  have e2 : r.filter (fun a => decide (a.1 ≠ k.1)) = r := by
    rw [List.filter_eq_self]; intro a ha; simpa using h2 a ha
  rw [List.filter_append, List.filter_cons, e1, e2]
  simp

theorem map_filter_key (l : List Io) (p : Nat → Bool) :
    (l.filter (fun io => p io.id)).map Io.key = (l.map Io.key).filter (fun a => p a.1) := by
  rw [List.filter_map]
  rfl

theorem flight_sd (s : S) (h : Inv s) : (flight s).filter sd = [] := by
  rw [List.filter_eq_nil_iff]
  intro a ha
  simp [sd_not_rd, h.fl a ha]

theorem inv_written (s : S) (h : Inv s) : Inv (written s) := by
  have hnd := key_fst_nodup s h
  have hfs := flight_sd s h
  unfold written
  split
  · rename_i hl
    split
    · exact h
    · rename_i w q hq
      obtain ⟨h1, h2, h3, h4, h5, h6, h7, h8, h9, h10, h11, h12, h13, h14, h15, h16⟩ := h
      have hk := h1 hl
      split
      · rename_i hio
        have hm : w.msg.reqKey = none := by simp [Wr.msg, hio, Msg.reqKey]
        constructor <;> try assumption
        · intro _
          simpa [flight, sqk, hq, hio, hm, List.filterMap_cons] using hk
        · simpa [flight, hm, List.filterMap_cons] using h2
        · simpa [sqk, hq, hio, hm, List.filterMap_cons] using h7
        · simpa [hm, List.filterMap_cons] using h15
      · rename_i id k c hio
        split
        · rename_i hr
          have hm : w.msg.reqKey = some (id, k, c) := by simp [Wr.msg, hio, hr, Msg.reqKey]
          have hmap : ∀ l : List Io,
              (l.map (fun io => if io.id = id then { io with xid := w.xid } else io)).map Io.key
                = l.map Io.key := by
            intro l
            rw [List.map_map]
            apply List.map_congr_left
            intro a _
            simp only [Function.comp]
            split <;> rfl
          constructor <;> try assumption
          · intro _
            dsimp only
            rw [hmap, hk]
            simp [flight, sqk, hq, hio, hm]
          · intro a ha
            simp only [flight, List.filterMap_append, List.filterMap_cons, hm, List.filterMap_nil,
              ← List.append_assoc, List.mem_append, List.mem_singleton] at ha
            rcases ha with (ha | ha) | ha
            · exact h2 a (by simp [flight, ha])
            · exact h2 a (by rw [flight]; exact List.mem_append_right _ ha)
            · subst ha; exact hr
          · dsimp only; rw [hmap]; exact h5
          · dsimp only; rw [hmap]; exact h6
          · rw [← h7]
            simp [sqk, hq, hio, hm, rd, hr]
          · intro hd; rw [hl] at hd; cases hd
          · intro t k' c' st hm'
            simp [h12 t k' c' st hm']
          · intro io hi; simp [h13 io hi]
          · intro p hp; simp [h14 p hp]
          · intro a ha
            simp only [List.filterMap_append, List.filterMap_cons, hm, List.filterMap_nil,
              List.mem_append, List.mem_singleton] at ha ⊢
            rcases ha with ha | ha
            · exact Or.inl (h15 a ha)
            · subst ha; exact Or.inr rfl
          · dsimp only; rw [hmap]; exact h16
        · rename_i hr
          have hr : k.rdma = false := by simpa using hr
          have hm : w.msg.reqKey = none := by simp [Wr.msg, hio, hr, Msg.reqKey]
          have hsq : sqk s = (id, k, c) :: q.filterMap Wr.io := by
            simp [sqk, hq, hio]
          rw [hsq] at hk
          rw [hk] at hnd
          have hke : (s.ioq.filter (fun io => io.id = id)).map Io.key = [(id, k, c)] := by
            rw [map_filter_key s.ioq (fun i => decide (i = id)), hk]
            exact filter_eq_mid hnd
          have hkn : (s.ioq.filter (fun io => io.id ≠ id)).map Io.key
              = flight s ++ q.filterMap Wr.io := by
            rw [map_filter_key s.ioq (fun i => decide (i ≠ id)), hk]
            exact filter_ne_mid hnd
          constructor <;> try assumption
          · intro _
            dsimp only
            rw [hkn]
            simp [flight, sqk, hm]
          · simpa [flight, hm, List.filterMap_cons] using h2
          · intro io hi
            simp only [List.mem_append] at hi
            rcases hi with hi | hi
            · exact h3 io hi
            · have : io.key ∈ [(id, k, c)] := by rw [← hke]; exact List.mem_map_of_mem hi
              simp only [List.mem_singleton, Io.key, Prod.mk.injEq] at this
              rw [this.2.1]; exact hr
          · dsimp only
            rw [List.map_append, hke, hkn, ← h5, hk]
            simp [List.filter_append, hfs, sd, hr]
          · dsimp only
            rw [hkn, ← h6, hk]
            simp [List.filter_append, rd, hr]
          · rw [← h7, hsq]
            simp [sqk, hm, rd, hr]
          · intro hd; rw [hl] at hd; cases hd
          · intro t k' c' st hm'
            simp [h12 t k' c' st hm']
          · intro io hi
            simp only [List.mem_append] at hi
            rcases hi with hi | hi
            · simp [h13 io hi]
            · simp at hi; simp [hi.2]
          · intro p hp; simp [h14 p hp]
          · intro a ha
            simp [hm] at ha
            obtain ⟨m, hm1, hm2⟩ := ha
            have := h15 a (by rw [List.mem_filterMap]; exact ⟨m, hm1, hm2⟩)
            simp [this]
          · dsimp only
            exact (List.filter_sublist.map _).trans h16
  · exact h

/-- a response always finds its operation at the head of the queue -/
theorem head_of (s : S) (h : Inv s) (hl : s.phase = .live) {t : Nat} {k : Kind} {x c st : Nat}
    {q : List Msg} (hq : s.inn = .resp t k x c st :: q) :
    ∃ io r, s.ioq = io :: r ∧ io.key = (t, k, c) := by
  have := h.queue hl
  simp only [flight, hq, List.filterMap_cons, Msg.respKey, List.cons_append] at this
  cases hi : s.ioq with
  | nil => rw [hi] at this; cases this
  | cons io r =>
    rw [hi, List.map_cons] at this
    exact ⟨io, r, rfl, (List.cons.inj this).1⟩

theorem inv_recv (s : S) (h : Inv s) : ∃ s', recv s = some s' ∧ Inv s' := by
  unfold recv
  split
  · rename_i hc
    obtain ⟨_, hl⟩ := hc
    split
    · exact ⟨s, rfl, h⟩
    · rename_i t k x c st q hq
      obtain ⟨io, r, hi, hkey⟩ := head_of s h hl hq
      obtain ⟨h1, h2, h3, h4, h5, h6, h7, h8, h9, h10, h11, h12, h13, h14, h15, h16⟩ := h
      have hk := h1 hl
      have hkk := hkey
      simp only [Io.key, Prod.mk.injEq] at hkk
      obtain ⟨e1, e2, e3⟩ := hkk
      have hrd : rd (t, k, c) = true := h2 _ (by simp [flight, hq, Msg.respKey])
      have hkr : k.rdma = true := hrd
      have hans := h8 t k x c st (by simp [hq])
      simp only [hi, e3, if_true]
      refine ⟨_, rfl, ?_⟩
      constructor <;> try assumption
      · intro _
        simp only [hi, hq, flight, List.filterMap_cons, Msg.respKey, List.cons_append,
          List.map_cons] at hk
        exact (List.cons.inj hk).2
      · intro a ha
        apply h2 a
        simp only [flight, hq, List.filterMap_cons, Msg.respKey, List.cons_append]
        exact List.mem_cons_of_mem _ ha
      · simp only [hi, List.map_cons, hkey, List.filter_cons] at h5
        simpa [Event.key, sd, hkr, List.filterMap_cons] using h5
      · simp only [hi, List.map_cons, hkey, List.filter_cons, hrd, if_true] at h6
        rw [← h6]
        simp [Event.key, e1, rd, hkr]
      · intro t' k' x' c' st' hm
        exact h8 t' k' x' c' st' (by rw [hq]; exact List.mem_cons_of_mem _ hm)
      · intro t' k' c' st' hm
        simp only [List.mem_append, List.mem_singleton] at hm
        rcases hm with hm | hm
        · exact h9 t' k' c' st' hm
        · cases hm
          rw [e1]
          exact ⟨fun _ => hans, fun hf => by rw [hkr] at hf; cases hf⟩
      · intro hm; exact h10 (by simpa using hm)
      · intro hd; rw [hl] at hd; cases hd
      · intro t' k' c' st' hm
        simp only [List.mem_append, List.mem_singleton] at hm
        rcases hm with hm | hm
        · exact h12 t' k' c' st' hm
        · cases hm
          rw [e1]
          exact h14 _ hans
      · rw [hi] at h16
        exact (List.sublist_cons_self _ _).trans h16
    · rename_i m q hne hq
      have hm : Msg.respKey m = none := by
        cases m with
        | resp t k x c st => exact absurd rfl (hne t k x c st)
        | req => rfl
        | other => rfl
      refine ⟨_, rfl, ?_⟩
      obtain ⟨h1, h2, h3, h4, h5, h6, h7, h8, h9, h10, h11, h12, h13, h14, h15, h16⟩ := h
      constructor <;> try assumption
      · intro hl
        have := h1 hl
        simpa [flight, hq, hm, List.filterMap_cons, sqk] using this
      · simpa [flight, hq, hm, List.filterMap_cons] using h2
      · intro t' k' x' c' st' hm
        exact h8 t' k' x' c' st' (by rw [hq]; exact List.mem_cons_of_mem _ hm)
  · exact ⟨s, rfl, h⟩

theorem inv_step (s : S) (h : Inv s) (e : Ev) : ∃ s', step s e = some s' ∧ Inv s' := by
  cases e with
  | post k c x => exact ⟨_, rfl, inv_post s h k c x⟩
  | postOther => exact ⟨_, rfl, inv_postOther s h⟩
  | written => exact ⟨_, rfl, inv_written s h⟩
  | complete => exact ⟨_, rfl, inv_complete s h⟩
  | peer st f => exact ⟨_, rfl, inv_peer s h st f⟩
  | peerOther => exact ⟨_, rfl, inv_peerOther s h⟩
  | recv => exact inv_recv s h
  | hup => exact ⟨_, rfl, inv_hup s h⟩
  | teardown => exact ⟨_, rfl, inv_teardown s h⟩
  | close b => exact ⟨_, rfl, inv_close s h b⟩

theorem inv_run (es : List Ev) : ∀ s : S, Inv s → ∃ s', run s es = some s' ∧ Inv s' := by
  induction es with
  | nil => intro s h; exact ⟨s, rfl, h⟩
  | cons e es ih =>
    intro s h
    obtain ⟨s1, h1, h2⟩ := inv_step s h e
    obtain ⟨s2, h3, h4⟩ := ih s1 h2
    exact ⟨s2, by simp [run, h1, h3], h4⟩

theorem inv_of_run {es : List Ev} {s : S} (h : run init es = some s) : Inv s := by
  obtain ⟨s', h1, h2⟩ := inv_run es init inv_init
  rw [h] at h1
  cases h1
  exact h2

end Verif.ZapIo
