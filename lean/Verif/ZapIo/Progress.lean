import Verif.ZapIo.Proofs

/-! Transaction ids, and what a history can always be continued to. -/

namespace Verif.ZapIo

structure XInv (s : S) : Prop where
  req : s.phase = .live → ∀ io ∈ s.ioq, ∀ t k x c, Msg.req t k x c ∈ s.out → io.id = t → io.xid = x
  resp : s.phase = .live → ∀ io ∈ s.ioq, ∀ t k x c st, Msg.resp t k x c st ∈ s.inn → io.id = t →
    io.xid ≠ 0 → io.xid = x

theorem flight_lt (s : S) (h : Inv s) (hl : s.phase = .live) (k : Key) (hk : k ∈ flight s) :
    k.1 < s.next := by
  have h1 : k ∈ s.accepted := h.sub.subset (by rw [h.queue hl]; exact List.mem_append_left _ hk)
  have h2 : k.1 ∈ s.accepted.map (·.1) := List.mem_map_of_mem h1
  rw [h.fresh] at h2
  exact List.mem_range.mp h2

theorem req_flight {s : S} {t : Nat} {k : Kind} {x c : Nat} (h : Msg.req t k x c ∈ s.out) :
    (t, k, c) ∈ flight s :=
  List.mem_append_right _ (List.mem_filterMap.mpr ⟨_, h, rfl⟩)

theorem resp_flight {s : S} {t : Nat} {k : Kind} {x c st : Nat} (h : Msg.resp t k x c st ∈ s.inn) :
    (t, k, c) ∈ flight s :=
  List.mem_append_left _ (List.mem_filterMap.mpr ⟨_, h, rfl⟩)

theorem xinv_init : XInv init := by constructor <;> simp [init]

theorem xinv_step (s s' : S) (h : Inv s) (hx : XInv s) (e : Ev) (he : step s e = some s') : XInv s' := by
  obtain ⟨x1, x2⟩ := hx
  cases e with
  | post k c x =>
    simp only [step, Option.some.injEq] at he
    subst he
    unfold post
    split
    · constructor
      · intro hl io hi t k' x' c' hm hid
        simp only [List.mem_append, List.mem_singleton] at hi
        rcases hi with hi | hi
        · exact x1 hl io hi t k' x' c' hm hid
        · subst hi
          have := flight_lt s h hl _ (req_flight hm)
          simp only at hid this
          omega
      · intro hl io hi t k' x' c' st hm hid
        simp only [List.mem_append, List.mem_singleton] at hi
        rcases hi with hi | hi
        · exact x2 hl io hi t k' x' c' st hm hid
        · subst hi
          intro hz
          exact absurd rfl hz
    · exact ⟨x1, x2⟩
  | postOther => simp only [step, Option.some.injEq] at he; subst he; exact ⟨x1, x2⟩
  | peerOther =>
    simp only [step, Option.some.injEq] at he
    subst he
    refine ⟨x1, ?_⟩
    intro hl io hi t k x c st hm hid
    exact x2 hl io hi t k x c st (by simpa using hm) hid
  | written =>
    simp only [step, Option.some.injEq] at he
    subst he
    unfold written
    split
    · rename_i hl
      split
      · exact ⟨x1, x2⟩
      · rename_i w q hq
        split
        · rename_i hio
          refine ⟨?_, x2⟩
          intro hl io hi t k x c hm hid
          apply x1 hl io hi t k x c _ hid
          simpa [Wr.msg, hio] using hm
        · rename_i id k c hio
          have hnd := key_fst_nodup s h
          rw [h.queue hl] at hnd
          have hsq : sqk s = (id, k, c) :: q.filterMap Wr.io := by simp [sqk, hq, hio]
          rw [hsq] at hnd
          have hne := (ids_ne hnd).1
          split
          · rename_i hr
            constructor
            · intro _ io hi t k' x' c' hm hid
              simp only [List.mem_map] at hi
              obtain ⟨io', hi', rfl⟩ := hi
              simp only [List.mem_append, List.mem_singleton, Wr.msg, hio, hr, if_true] at hm
              rcases hm with hm | hm
              · have := hne _ (req_flight hm)
                split at hid
                · rename_i heq
                  exact absurd (hid.symm.trans heq) this
                · rename_i heq
                  rw [if_neg heq]
                  exact x1 hl io' hi' t k' x' c' hm hid
              · cases hm
                split
                · rfl
                · rename_i heq
                  rw [if_neg heq] at hid
                  exact absurd hid heq
            · intro _ io hi t k' x' c' st hm hid
              simp only [List.mem_map] at hi
              obtain ⟨io', hi', rfl⟩ := hi
              have := hne _ (resp_flight hm)
              split at hid
              · rename_i heq
                exact absurd (hid.symm.trans heq) this
              · rename_i heq
                rw [if_neg heq]
                exact x2 hl io' hi' t k' x' c' st hm hid
          · rename_i hr
            constructor
            · intro hl io hi t k' x' c' hm hid
              refine x1 hl io (List.mem_filter.mp hi).1 t k' x' c' ?_ hid
              simpa [Wr.msg, hio, hr] using hm
            · intro hl io hi t k' x' c' st hm hid
              exact x2 hl io (List.mem_filter.mp hi).1 t k' x' c' st hm hid
    · exact ⟨x1, x2⟩
  | complete =>
    simp only [step, Option.some.injEq] at he
    subst he
    unfold complete
    repeat' split
    all_goals exact ⟨x1, x2⟩
  | peer st f =>
    simp only [step, Option.some.injEq] at he
    subst he
    unfold peer
    split
    · exact ⟨x1, x2⟩
    · rename_i t k x c q hq
      constructor
      · intro hl io hi t' k' x' c' hm hid
        exact x1 hl io hi t' k' x' c' (by rw [hq]; exact List.mem_cons_of_mem _ hm) hid
      · intro hl io hi t' k' x' c' st' hm hid hz
        simp only [List.mem_append, List.mem_singleton] at hm
        rcases hm with hm | hm
        · exact x2 hl io hi t' k' x' c' st' hm hid hz
        · cases hm
          have := x1 hl io hi t k x c (by simp [hq]) hid
          rw [this] at hz ⊢
          rw [if_neg hz]
    · rename_i m q hne hq
      refine ⟨?_, x2⟩
      intro hl io hi t' k' x' c' hm hid
      exact x1 hl io hi t' k' x' c' (by rw [hq]; exact List.mem_cons_of_mem _ hm) hid
  | recv =>
    simp only [step, recv] at he
    split at he
    · split at he
      · cases he; exact ⟨x1, x2⟩
      · rename_i t k x c st q hq
        split at he
        · cases he
        · rename_i io r hr
          split at he
          · cases he
            constructor
            · intro hl i hi t' k' x' c' hm hid
              exact x1 hl i (by rw [hr]; exact List.mem_cons_of_mem _ hi) t' k' x' c' hm hid
            · intro hl i hi t' k' x' c' st' hm hid
              exact x2 hl i (by rw [hr]; exact List.mem_cons_of_mem _ hi) t' k' x' c' st'
                (by rw [hq]; exact List.mem_cons_of_mem _ hm) hid
          · cases he
      · rename_i m q hne hq
        cases he
        refine ⟨x1, ?_⟩
        intro hl i hi t' k' x' c' st' hm hid
        exact x2 hl i hi t' k' x' c' st' (by rw [hq]; exact List.mem_cons_of_mem _ hm) hid
    · cases he; exact ⟨x1, x2⟩
  | hup =>
    simp only [step, Option.some.injEq] at he
    subst he
    unfold hup
    split
    · exact ⟨fun h => (by cases h), fun h => (by cases h)⟩
    · exact ⟨x1, x2⟩
  | teardown =>
    simp only [step, Option.some.injEq] at he
    subst he
    unfold teardown
    split
    · rename_i hc
      split
      · constructor
        · intro h; rw [hc.1] at h; cases h
        · intro h; rw [hc.1] at h; cases h
      · exact ⟨fun h => (by cases h), fun h => (by cases h)⟩
    · exact ⟨x1, x2⟩
  | close b =>
    simp only [step, Option.some.injEq] at he
    subst he
    unfold close
    split <;> exact ⟨x1, x2⟩

theorem xinv_run (es : List Ev) : ∀ s s' : S, Inv s → XInv s → run s es = some s' → XInv s' := by
  induction es with
  | nil => intro s s' _ hx h; cases h; exact hx
  | cons e es ih =>
    intro s s' hi hx h
    obtain ⟨s1, h1, h2⟩ := inv_step s hi e
    simp only [run, h1, Option.bind_some] at h
    exact ih s1 s' h2 (xinv_step s s1 hi hx e h1) h

theorem run_append (es fs : List Ev) : ∀ s : S, run s (es ++ fs) = (run s es).bind (fun t => run t fs) := by
  induction es with
  | nil => intro s; rfl
  | cons e es ih =>
    intro s
    simp only [List.cons_append, run]
    cases step s e with
    | none => rfl
    | some t => exact ih t

/-! ### A lost connection is torn down -/

theorem drain_cq (n : Nat) : ∀ s : S, s.phase = .dying → s.iocq.length = n →
    ∃ t, run s (List.replicate n .complete) = some t ∧ t.phase = .dying ∧ t.iocq = [] ∧ t.ioq = s.ioq := by
  induction n with
  | zero => intro s hp hn; exact ⟨s, rfl, hp, List.eq_nil_of_length_eq_zero hn, rfl⟩
  | succ n ih =>
    intro s hp hn
    cases hq : s.iocq with
    | nil => rw [hq] at hn; cases hn
    | cons io q =>
      have hs : (complete s).phase = .dying ∧ (complete s).iocq = q ∧ (complete s).ioq = s.ioq := by
        simp [complete, hp, hq]
      obtain ⟨a, b, c⟩ := hs
      obtain ⟨t, h1, h2, h3, h4⟩ := ih (complete s) a (by rw [b]; rw [hq] at hn; simpa using hn)
      exact ⟨t, by simp [List.replicate_succ, run, step, h1], h2, h3, by rw [h4, c]⟩

theorem drain_ioq (n : Nat) : ∀ s : S, s.phase = .dying → s.iocq = [] → s.ioq.length = n →
    ∃ t, run s (List.replicate (n + 1) .teardown) = some t ∧ t.phase = .down := by
  induction n with
  | zero =>
    intro s hp hc hn
    have hq := List.eq_nil_of_length_eq_zero hn
    refine ⟨teardown s, rfl, ?_⟩
    simp [teardown, hp, hc, hq]
  | succ n ih =>
    intro s hp hc hn
    cases hq : s.ioq with
    | nil => rw [hq] at hn; cases hn
    | cons io q =>
      have hs : (teardown s).phase = .dying ∧ (teardown s).iocq = [] ∧ (teardown s).ioq = q := by
        simp [teardown, hp, hc, hq]
      obtain ⟨a, b, c⟩ := hs
      obtain ⟨t, h1, h2⟩ := ih (teardown s) a b (by rw [c]; rw [hq] at hn; simpa using hn)
      refine ⟨t, ?_, h2⟩
      rw [List.replicate_succ]
      simp only [run, step, Option.bind_some]
      exact h1

theorem reach_down (s : S) (hp : s.phase ≠ .down) :
    ∃ t, run s (.hup :: (List.replicate s.iocq.length .complete
      ++ List.replicate (s.ioq.length + 1) .teardown)) = some t ∧ t.phase = .down := by
  have h1 : (hup s).phase = .dying ∧ (hup s).iocq = s.iocq ∧ (hup s).ioq = s.ioq := by
    unfold hup
    split
    · exact ⟨rfl, rfl, rfl⟩
    · refine ⟨?_, rfl, rfl⟩
      cases h : s.phase <;> simp_all
  obtain ⟨p1, p2, p3⟩ := h1
  obtain ⟨t, h2, h3, h4, h5⟩ := drain_cq s.iocq.length (hup s) p1 (by rw [p2])
  obtain ⟨u, h6, h7⟩ := drain_ioq s.ioq.length t h3 h4 (by rw [h5, p3])
  refine ⟨u, ?_, h7⟩
  simp only [run, step, Option.bind_some, run_append, h2, h6]

/-! ### A healthy connection completes everything -/

def flushes (l : List Event) : List Event :=
  l.filter (fun e => match e with | .comp _ _ _ .flush => true | _ => false)

theorem flushes_done (l : List Event) (i : Nat) (k : Kind) (c st : Nat) :
    flushes (l ++ [.comp i k c (.done st)]) = flushes l := by simp [flushes]

theorem drain_sq (n : Nat) : ∀ s : S, s.phase = .live → s.sq.length = n →
    ∃ t, run s (List.replicate n .written) = some t ∧ t.phase = .live ∧ t.st = s.st ∧ t.sq = [] ∧
      flushes t.log = flushes s.log ∧ t.accepted = s.accepted := by
  induction n with
  | zero => intro s hp hn; exact ⟨s, rfl, hp, rfl, List.eq_nil_of_length_eq_zero hn, rfl, rfl⟩
  | succ n ih =>
    intro s hp hn
    cases hq : s.sq with
    | nil => rw [hq] at hn; cases hn
    | cons w q =>
      have h1 : (written s).phase = .live ∧ (written s).st = s.st ∧ (written s).sq = q ∧
          (written s).log = s.log ∧ (written s).accepted = s.accepted := by
        unfold written
        simp only [hp, if_true, hq]
        split
        · simp
        · split <;> simp
      obtain ⟨a, b, c, d, e⟩ := h1
      obtain ⟨t, t1, t2, t3, t4, t5, t6⟩ := ih (written s) a (by rw [c]; rw [hq] at hn; simpa using hn)
      refine ⟨t, ?_, t2, by rw [t3, b], t4, by rw [t5, d], by rw [t6, e]⟩
      simp [List.replicate_succ, run, step, t1]

theorem drain_out (n : Nat) : ∀ s : S, s.phase = .live → s.sq = [] → s.out.length = n →
    ∃ t, run s (List.replicate n (.peer 0 0)) = some t ∧ t.phase = .live ∧ t.st = s.st ∧ t.sq = [] ∧
      t.out = [] ∧ flushes t.log = flushes s.log ∧ t.accepted = s.accepted := by
  induction n with
  | zero => intro s hp hs hn; exact ⟨s, rfl, hp, rfl, hs, List.eq_nil_of_length_eq_zero hn, rfl, rfl⟩
  | succ n ih =>
    intro s hp hs hn
    cases hq : s.out with
    | nil => rw [hq] at hn; cases hn
    | cons w q =>
      have h1 : (peer s 0 0).phase = .live ∧ (peer s 0 0).st = s.st ∧ (peer s 0 0).sq = [] ∧
          (peer s 0 0).out = q ∧
          (peer s 0 0).log = s.log ∧ (peer s 0 0).accepted = s.accepted := by
        unfold peer
        cases w <;> simp [hq, hp, hs]
      obtain ⟨a, b, c, d, e, f⟩ := h1
      obtain ⟨t, t1, t2, t3, t4, t5, t6, t7⟩ := ih (peer s 0 0) a c
        (by rw [d]; rw [hq] at hn; simpa using hn)
      refine ⟨t, ?_, t2, by rw [t3, b], t4, t5, by rw [t6, e], by rw [t7, f]⟩
      simp [List.replicate_succ, run, step, t1]

theorem drain_inn (n : Nat) : ∀ s : S, Inv s → s.phase = .live → s.st = .connected → s.sq = [] →
    s.out = [] → s.inn.length = n →
    ∃ t, run s (List.replicate n .recv) = some t ∧ t.phase = .live ∧ t.st = .connected ∧ t.sq = [] ∧
      t.out = [] ∧ t.inn = [] ∧ flushes t.log = flushes s.log ∧ t.accepted = s.accepted := by
  induction n with
  | zero =>
    intro s _ hp hc hs ho hn
    exact ⟨s, rfl, hp, hc, hs, ho, List.eq_nil_of_length_eq_zero hn, rfl, rfl⟩
  | succ n ih =>
    intro s hi hp hc hs ho hn
    cases hq : s.inn with
    | nil => rw [hq] at hn; cases hn
    | cons m q =>
      obtain ⟨s1, h1, h2⟩ := inv_recv s hi
      have h3 : s1.phase = .live ∧ s1.st = .connected ∧ s1.sq = [] ∧ s1.out = [] ∧ s1.inn = q ∧
          flushes s1.log = flushes s.log ∧ s1.accepted = s.accepted := by
        cases m with
        | resp t k x c st =>
          obtain ⟨io, r, hr, hk⟩ := head_of s hi hp hq
          simp only [Io.key, Prod.mk.injEq] at hk
          simp only [recv, hp, hc, hq, hr, hk.2.2, and_self, if_true, Option.some.injEq] at h1
          subst h1
          exact ⟨rfl, rfl, hs, ho, rfl, flushes_done _ _ _ _ _, rfl⟩
        | req t k x c =>
          simp only [recv, hp, hc, hq, and_self, if_true, Option.some.injEq] at h1
          subst h1
          exact ⟨rfl, rfl, hs, ho, rfl, rfl, rfl⟩
        | other =>
          simp only [recv, hp, hc, hq, and_self, if_true, Option.some.injEq] at h1
          subst h1
          exact ⟨rfl, rfl, hs, ho, rfl, rfl, rfl⟩
      obtain ⟨a, b, c, d, e, f, g⟩ := h3
      obtain ⟨t, t1, t2, t3, t4, t5, t6, t7, t8⟩ := ih s1 h2 a b c d
        (by rw [e]; rw [hq] at hn; simpa using hn)
      refine ⟨t, ?_, t2, t3, t4, t5, t6, by rw [t7, f], by rw [t8, g]⟩
      simp [List.replicate_succ, run, step, h1, t1]

theorem drain_cq_live (n : Nat) : ∀ s : S, s.phase = .live → s.iocq.length = n →
    ∃ t, run s (List.replicate n .complete) = some t ∧ t.phase = .live ∧ t.iocq = [] ∧ t.ioq = s.ioq ∧
      flushes t.log = flushes s.log ∧ t.accepted = s.accepted := by
  induction n with
  | zero => intro s hp hn; exact ⟨s, rfl, hp, List.eq_nil_of_length_eq_zero hn, rfl, rfl, rfl⟩
  | succ n ih =>
    intro s hp hn
    cases hq : s.iocq with
    | nil => rw [hq] at hn; cases hn
    | cons io q =>
      have hs : (complete s).phase = .live ∧ (complete s).iocq = q ∧ (complete s).ioq = s.ioq ∧
          flushes (complete s).log = flushes s.log ∧ (complete s).accepted = s.accepted := by
        simp [complete, hp, hq, flushes_done]
      obtain ⟨a, b, c, d, e⟩ := hs
      obtain ⟨t, h1, h2, h3, h4, h5, h6⟩ := ih (complete s) a (by rw [b]; rw [hq] at hn; simpa using hn)
      exact ⟨t, by simp [List.replicate_succ, run, step, h1], h2, h3, by rw [h4, c], by rw [h5, d],
        by rw [h6, e]⟩

theorem inv_run_of (es : List Ev) (s t : S) (hi : Inv s) (h : run s es = some t) : Inv t := by
  obtain ⟨t', h1, h2⟩ := inv_run es s hi
  rw [h] at h1
  cases h1
  exact h2

theorem quiesce (s : S) (hi : Inv s) (hp : s.phase = .live) (hc : s.st = .connected) :
    ∃ (a b c d : Nat) (t : S), run s (List.replicate a .written ++ (List.replicate b (.peer 0 0) ++
      (List.replicate c .recv ++ List.replicate d .complete))) = some t ∧ t.ioq = [] ∧ t.iocq = [] ∧
      flushes t.log = flushes s.log ∧ t.accepted = s.accepted := by
  obtain ⟨s1, a1, a2, a3, a4, a5, a6⟩ := drain_sq s.sq.length s hp rfl
  obtain ⟨s2, b1, b2, b3, b4, b5, b6, b7⟩ := drain_out s1.out.length s1 a2 a4 rfl
  have hi2 := inv_run_of _ _ _ (inv_run_of _ _ _ hi a1) b1
  obtain ⟨s3, c1, c2, c3, c4, c5, c6, c7, c8⟩ := drain_inn s2.inn.length s2 hi2 b2
    (by rw [b3, a3, hc]) b4 b5 rfl
  have hi3 := inv_run_of _ _ _ hi2 c1
  have hq : s3.ioq = [] := by
    have := hi3.queue c2
    simp only [flight, sqk, c4, c5, c6, List.filterMap_nil, List.append_nil] at this
    exact List.map_eq_nil_iff.mp this
  obtain ⟨s4, d1, d2, d3, d4, d5, d6⟩ := drain_cq_live s3.iocq.length s3 c2 rfl
  refine ⟨s.sq.length, s1.out.length, s2.inn.length, s3.iocq.length, s4, ?_, by rw [d4, hq], d3,
    by rw [d5, c7, b6, a5], by rw [d6, c8, b7, a6]⟩
  rw [run_append, a1]
  simp only [Option.bind_some]
  rw [run_append, b1]
  simp only [Option.bind_some]
  rw [run_append, c1]
  simp only [Option.bind_some]
  exact d1

/-! ### After the end -/

structure Same (s t : S) : Prop where
  log : t.log = s.log
  acc : t.accepted = s.accepted
  sq : ∃ l, t.sq = s.sq ++ l
  phase : t.phase = .down

theorem down_step (s : S) (hi : Inv s) (hd : s.phase = .down) (e : Ev) (t : S) (h : step s e = some t) :
    Same s t := by
  have hst := (hi.down hd).2.2.1
  cases e with
  | post k c x =>
    simp only [step, post, if_neg hst, Option.some.injEq] at h
    subst h; exact ⟨rfl, rfl, ⟨[], by simp⟩, hd⟩
  | postOther => simp only [step, Option.some.injEq] at h; subst h; exact ⟨rfl, rfl, ⟨_, rfl⟩, hd⟩
  | written => simp [step, written, hd] at h; subst h; exact ⟨rfl, rfl, ⟨[], by simp⟩, hd⟩
  | complete => simp [step, complete, hd] at h; subst h; exact ⟨rfl, rfl, ⟨[], by simp⟩, hd⟩
  | peer st f =>
    simp only [step, peer, Option.some.injEq] at h
    split at h <;> (subst h; exact ⟨rfl, rfl, ⟨[], by simp⟩, hd⟩)
  | peerOther => simp only [step, Option.some.injEq] at h; subst h; exact ⟨rfl, rfl, ⟨[], by simp⟩, hd⟩
  | recv => simp [step, recv, hd] at h; subst h; exact ⟨rfl, rfl, ⟨[], by simp⟩, hd⟩
  | hup => simp [step, hup, hd] at h; subst h; exact ⟨rfl, rfl, ⟨[], by simp⟩, hd⟩
  | teardown => simp [step, teardown, hd] at h; subst h; exact ⟨rfl, rfl, ⟨[], by simp⟩, hd⟩
  | close b =>
    simp only [step, close, Option.some.injEq] at h
    split at h <;> (subst h; exact ⟨rfl, rfl, ⟨[], by simp⟩, hd⟩)

theorem down_run (es : List Ev) : ∀ s t : S, Inv s → s.phase = .down → run s es = some t → Same s t := by
  induction es with
  | nil => intro s t _ hd h; cases h; exact ⟨rfl, rfl, ⟨[], by simp⟩, hd⟩
  | cons e es ih =>
    intro s t hi hd h
    obtain ⟨s1, h1, h2⟩ := inv_step s hi e
    simp only [run, h1, Option.bind_some] at h
    have a := down_step s hi hd e s1 h1
    have b := ih s1 t h2 a.phase h
    obtain ⟨l, hl⟩ := a.sq
    obtain ⟨m, hm⟩ := b.sq
    exact ⟨b.log.trans a.log, b.acc.trans a.acc, ⟨l ++ m, by rw [hm, hl, List.append_assoc]⟩, b.phase⟩

/-- a flush is only reported once the connection is lost -/
theorem flush_phase (es : List Ev) : ∀ s t : S, (s.phase = .live → flushes s.log = []) → Inv s →
    run s es = some t → (t.phase = .live → flushes t.log = []) := by
  induction es with
  | nil => intro s t h _ hr; cases hr; exact h
  | cons e es ih =>
    intro s t h hi hr
    obtain ⟨s1, h1, h2⟩ := inv_step s hi e
    simp only [run, h1, Option.bind_some] at hr
    refine ih s1 t ?_ h2 hr
    cases e with
    | post k c x =>
      simp only [step, post, Option.some.injEq] at h1
      split at h1 <;> (subst h1; exact h)
    | postOther => simp only [step, Option.some.injEq] at h1; subst h1; exact h
    | written =>
      simp only [step, written, Option.some.injEq] at h1
      repeat' split at h1
      all_goals (subst h1; exact h)
    | complete =>
      simp only [step, complete, Option.some.injEq] at h1
      repeat' split at h1
      · subst h1; exact h
      · subst h1; exact h
      · subst h1
        intro hl
        dsimp only
        rw [flushes_done]
        exact h hl
    | peer st f =>
      simp only [step, peer, Option.some.injEq] at h1
      split at h1 <;> (subst h1; exact h)
    | peerOther => simp only [step, Option.some.injEq] at h1; subst h1; exact h
    | recv =>
      simp only [step, recv] at h1
      repeat' split at h1
      all_goals first
        | cases h1; done
        | (simp only [Option.some.injEq] at h1; subst h1; exact h)
        | (simp only [Option.some.injEq] at h1; subst h1; intro hl; dsimp only; rw [flushes_done]; exact h hl)
    | hup =>
      simp only [step, hup, Option.some.injEq] at h1
      split at h1
      · subst h1; intro hl; cases hl
      · subst h1; exact h
    | teardown =>
      simp only [step, teardown, Option.some.injEq] at h1
      split at h1
      · rename_i hc
        split at h1
        · subst h1; intro hl; rw [hc.1] at hl; cases hl
        · subst h1; intro hl; cases hl
      · subst h1; exact h
    | close b =>
      simp only [step, close, Option.some.injEq] at h1
      split at h1 <;> (subst h1; exact h)

end Verif.ZapIo
