import Verif.DStream.Proofs

/-!
# C86: streams of the daemon
-/

namespace Verif.DStream

/-! ## Subscriptions -/

/-- **C86.** A subscription is refused if and only if the function and its context have one to the stream already. -/
theorem subscribe_result (as : List Act) (n f x : Nat) :
    (subscribe (run as) n f x).2 = none ↔ ∃ s ∈ subs as, s.name = n ∧ s.fn = f ∧ s.ctxt = x := by
  have hex : ((look (run as) n).clients.any fun c => c.fn == f && c.ctxt == x) = true ↔ ∃ s ∈ subs as, s.name = n ∧ s.fn = f ∧ s.ctxt = x := by
    rw [clients_eq as n]
    simp [subsOf, toClient, List.any_eq_true]
  rw [← hex]
  show (if (onStream n (subscribeAt (run as).next f x) (run as).streams).2 = true then some (run as).next else none) = none ↔ _
  rw [snd_onStream]
  show (if (subscribeAt (run as).next f x (look (run as) n)).2 = true then some (run as).next else none) = none ↔ _
  unfold subscribeAt
  split
  · next h => simp [h]
  · next h => simp [h]

/-- **C86.** The number of subscribers of a stream is the number of its subscriptions that are in force. -/
theorem subscriber_count (as : List Act) (n : Nat) : subscriberCount (run as) n = (subsOf as n).length := by
  have h := clients_eq as n
  rw [look_eq] at h
  unfold subscriberCount
  cases hf : (run as).streams.find? fun s => s.name = n with
  | none =>
    rw [hf] at h
    have := congrArg List.length h
    simpa [fresh] using this
  | some s =>
    rw [hf] at h
    have := congrArg List.length h
    simpa using this

/-! ## Deliveries -/

/-- those who get a message: a text that cannot be parsed is kept from one of those who want it parsed, the one who came last -/
def takers (as : List Act) (n : Nat) (m : Msg) : List Sub :=
  if m.Bad then (subsOf as n).eraseP fun s => !s.raw else subsOf as n

/-- handles and messages of all calls -/
def log : List Act → List (Nat × Msg)
  | [] => []
  | .deliver n m _ _ :: as => log as ++ (takers as n m).map fun s => (s.handle, m)
  | _ :: as => log as

theorem visit_takers (as : List Act) (n : Nat) (m : Msg) :
    (visit m (look (run as) n).clients m.given false).map (fun c => (c.handle, c.msg)) = (takers as n m).map fun s => (s.handle, m) := by
  rw [clients_eq]
  unfold takers
  by_cases hb : m.Bad
  · rw [if_pos hb, hb.2.1, visit_bad hb, List.eraseP_map]
    simp only [List.map_map]
    rfl
  · rw [if_neg hb, visit_all hb]
    simp only [List.map_map]
    rfl

/-- **C86.** Exactly which functions are called, with what and in which order. -/
theorem calls_exact : ∀ as : List Act, (run as).calls.map (fun c => (c.handle, c.msg)) = log as
  | [] => rfl
  | a :: as => by
    have ih := calls_exact as
    cases a with
    | deliver n m t b =>
      show (deliver (run as) n m t b).calls.map _ = log as ++ _
      rw [calls_deliver, List.map_append, ih, visit_takers]
    | publish n l t =>
      show (publish (run as) n l t).calls.map _ = log as
      unfold publish
      split <;> exact ih
    | new n => exact ih
    | subscribe n f x => exact ih
    | close h => exact ih
    | setRaw h r => exact ih
    | reset => exact ih
    | write b n => exact ih

theorem filter_one {h : Nat} {m : Msg} : ∀ {l : List Sub}, (l.map Sub.handle).Nodup →
    ((l.map fun s => (s.handle, m)).filter fun p => p.1 = h) = if ∃ s ∈ l, s.handle = h then [(h, m)] else []
  | [], _ => by simp
  | s :: l, hn => by
    obtain ⟨h1, h2⟩ := List.nodup_cons.1 hn
    have ih := filter_one (h := h) (m := m) h2
    simp only [List.map_cons, List.filter_cons, ih]
    by_cases hs : s.handle = h
    · have : ¬ ∃ s ∈ l, s.handle = h := fun ⟨t, ht, he⟩ => h1 (List.mem_map.2 ⟨t, ht, he.trans hs.symm⟩)
      rw [if_neg this]
      simp [hs]
    · simp [hs]

/-- **C86, part.** If every text can be parsed or need not be, each client gets exactly the messages that came on its stream while it was subscribed, once each and in their
order. -/
theorem heard_partial (h : Nat) : ∀ {as : List Act}, (∀ n m t b, Act.deliver n m t b ∈ as → ¬ m.Bad) →
    ((run as).calls.filter fun c => c.handle = h).map Call.msg = heard h as := by
  intro as hb
  have key : ∀ as : List Act, (∀ n m t b, Act.deliver n m t b ∈ as → ¬ m.Bad) → ((log as).filter fun p => p.1 = h).map Prod.snd = heard h as := by
    intro as
    induction as with
    | nil => intro _; rfl
    | cons a as ih =>
      intro hb
      have ih := ih fun n m t b hm => hb n m t b (List.mem_cons_of_mem _ hm)
      cases a with
      | deliver n m t b =>
        show ((log as ++ (takers as n m).map fun s => (s.handle, m)).filter _).map Prod.snd = heard h as ++ _
        rw [List.filter_append, List.map_append, ih]
        unfold takers
        rw [if_neg (hb n m t b (List.mem_cons_self ..)), filter_one (subsOf_nodup as n)]
        split <;> rfl
      | publish n l t => exact ih
      | new n => exact ih
      | subscribe n f x => exact ih
      | close h => exact ih
      | setRaw h r => exact ih
      | reset => exact ih
      | write b n => exact ih
  rw [← key as hb, ← calls_exact as, List.filter_map, List.map_map]
  rfl

/-- **C86.** Clients that want JSON parsed get the object, if the text can be parsed or the caller has the object. -/
theorem object_given {as : List Act} {n : Nat} {m : Msg} (hj : m.json = true) (hg : m.good = true ∨ m.given = true) {s : Sub} (hs : s ∈ subsOf as n) (hr : s.raw = false)
    (t : Nat) (b : Option Nat) : ∃ new, (run (.deliver n m t b :: as)).calls = (run as).calls ++ new ∧ (new.filter fun c => c.handle = s.handle) = [⟨s.handle, m, true⟩] := by
  refine ⟨_, calls_deliver, ?_⟩
  have hmem : ∀ {cs : List Client}, (toClient s) ∈ cs → ⟨s.handle, m, true⟩ ∈ visit m cs m.given false := by
    intro cs hc
    cases hv : m.given with
    | true =>
      rw [visit_done (Or.inr (Or.inl rfl))]
      exact List.mem_map.2 ⟨_, hc, rfl⟩
    | false =>
      rcases hg with hg | hg
      · exact (visit_good hj hg cs).2 _ hc hr
      · rw [hv] at hg; exact absurd hg (by simp)
  have h1 := hmem (cs := (look (run as) n).clients) (by rw [clients_eq]; exact List.mem_map.2 ⟨s, hs, rfl⟩)
  have hnb : ¬ m.Bad := by
    rintro ⟨_, h2, h3⟩
    rcases hg with hg | hg
    · rw [h3] at hg; exact absurd hg (by simp)
    · rw [h2] at hg; exact absurd hg (by simp)
  have h2 := visit_takers as n m
  unfold takers at h2
  rw [if_neg hnb] at h2
  have h3 : ((visit m (look (run as) n).clients m.given false).filter fun c => c.handle = s.handle).map (fun c => (c.handle, c.msg)) = [(s.handle, m)] := by
    have := filter_one (h := s.handle) (m := m) (subsOf_nodup as n)
    rw [if_pos ⟨s, hs, rfl⟩, ← h2, List.filter_map] at this
    exact this
  generalize visit m (look (run as) n).clients m.given false = l at h1 h3 ⊢
  have h4 : (⟨s.handle, m, true⟩ : Call) ∈ l.filter fun c => c.handle = s.handle := List.mem_filter.2 ⟨h1, by simp⟩
  generalize (l.filter fun c => c.handle = s.handle) = l' at h3 h4 ⊢
  match l', h3, h4 with
  | [c], _, h4 => rw [List.mem_singleton.1 h4]
  | _ :: _ :: _, h3, _ => simp at h3

/-- **C86 is false** of texts that cannot be parsed: of the clients that want them parsed, the one who came last is left out, and all others are called without an object. -/
theorem parse_defect {as : List Act} {n : Nat} {m : Msg} (hb : m.Bad) {x y : Sub} {before after : List Sub} (hs : subsOf as n = before ++ x :: after)
    (h1 : ∀ s ∈ before, s.raw = true) (h2 : x.raw = false) (h3 : y ∈ after) (_h4 : y.raw = false) (t : Nat) (b : Option Nat) :
    ∃ new, (run (.deliver n m t b :: as)).calls = (run as).calls ++ new ∧ (∀ c ∈ new, c.handle ≠ x.handle) ∧ ⟨y.handle, m, false⟩ ∈ new := by
  refine ⟨_, calls_deliver, ?_⟩
  have hnd := subsOf_nodup as n
  rw [clients_eq, hb.2.1, visit_bad hb, List.eraseP_map]
  have he : (subsOf as n).eraseP ((fun c : Client => !c.raw) ∘ toClient) = before ++ after := by
    rw [hs, List.eraseP_append_right _ (by intro s hs'; simp [toClient, h1 s hs'])]
    rw [List.eraseP_cons_of_pos (by simp [toClient, h2])]
  rw [he]
  simp only [List.map_map]
  constructor
  · intro c hc
    obtain ⟨s, hs', rfl⟩ := List.mem_map.1 hc
    rw [hs] at hnd
    intro heq
    have heq : s.handle = x.handle := heq
    rw [List.map_append, List.map_cons] at hnd
    have hp := List.perm_middle (a := x.handle) (l₁ := before.map Sub.handle) (l₂ := after.map Sub.handle)
    have := (List.nodup_cons.1 (hp.nodup_iff.1 hnd)).1
    apply this
    rw [← List.map_append, ← heq]
    exact List.mem_map.2 ⟨s, hs', rfl⟩
  · exact List.mem_map.2 ⟨y, List.mem_append_right _ h3, rfl⟩

/-! ## Statistics -/

/-- **C86.** The statistics of what a stream received count its messages since the last reset. -/
theorem recv_counts (as : List Act) (n : Nat) : Counts (look (run as) n).recv (rxOf n as) := (counts_run as n).1

/-- **C86.** The statistics of what was published on a stream count the messages that were sent since the last reset. -/
theorem pub_counts (as : List Act) (n : Nat) : Counts (look (run as) n).pub (txOf n as) := (counts_run as n).2

/-- first and last time, number, and sum of the lengths -/
def report : List (Nat × Nat) → List Info
  | [] => []
  | l@(x :: _) => [⟨((l.map Prod.fst).getLast?).getD 0, x.1, l.length, (l.map Prod.snd).sum⟩]

/-- **C86, part.** If the buffers of names are never changed, each publisher has one entry, and it counts all its messages. -/
theorem publ_partial : ∀ {as : List Act}, (∀ b c, Act.write b c ∉ as) → ∀ n b,
    ((look (run as) n).publs.filter fun p => p.name = b).map Publ.info = report (pxOf n b as) := by
  intro as hw
  have key : ∀ as : List Act, (∀ b c, Act.write b c ∉ as) → (run as).mem = id ∧ ∀ n, (∀ p ∈ (look (run as) n).publs, p.key = p.name) ∧
      ∀ b, ((look (run as) n).publs.filter fun p => p.name = b).map Publ.info = report (pxOf n b as) := by
    intro as
    induction as with
    | nil => intro _; exact ⟨rfl, fun n => ⟨(fun _ h => nomatch h), fun _ => rfl⟩⟩
    | cons a as ih =>
      intro hw
      obtain ⟨hm, ih⟩ := ih fun b c h => hw b c (List.mem_cons_of_mem _ h)
      have keep : ∀ {st : St}, st.mem = (run as).mem → (∀ n, (look st n).publs = (look (run as) n).publs) → (∀ n b, pxOf n b (a :: as) = pxOf n b as) →
          st.mem = id ∧ ∀ n, (∀ p ∈ (look st n).publs, p.key = p.name) ∧
            ∀ b, ((look st n).publs.filter fun p => p.name = b).map Publ.info = report (pxOf n b (a :: as)) := by
        intro st h1 h2 h3
        refine ⟨h1.trans hm, fun n => ?_⟩
        rw [h2]
        exact ⟨(ih n).1, fun b => by rw [h3]; exact (ih n).2 b⟩
      cases a with
      | new k => exact keep rfl (fun n => by rw [show run (Act.new k :: as) = new (run as) k from rfl, look_new]) (fun _ _ => rfl)
      | subscribe k f x =>
        refine keep rfl (fun n => ?_) (fun _ _ => rfl)
        rw [show run (Act.subscribe k f x :: as) = (subscribe (run as) k f x).1 from rfl, look_subscribe]
        split
        · next h => subst h; unfold subscribeAt; split <;> rfl
        · rfl
      | close h => exact keep rfl (fun n => by rw [show run (Act.close h :: as) = close (run as) h from rfl, look_close]) (fun _ _ => rfl)
      | setRaw h r => exact keep rfl (fun n => by rw [show run (Act.setRaw h r :: as) = setRaw (run as) h r from rfl, look_setRaw]) (fun _ _ => rfl)
      | publish k l t =>
        refine keep (by show (publish (run as) k l t).mem = _; unfold publish; split <;> rfl) (fun n => ?_) (fun _ _ => rfl)
        rw [show run (Act.publish k l t :: as) = publish (run as) k l t from rfl, look_publish]
        split
        · next h => rw [h.1]; rfl
        · rfl
      | reset => exact keep rfl (fun n => by rw [show run (Act.reset :: as) = reset (run as) from rfl, look_reset]) (fun _ _ => rfl)
      | write b c => exact absurd (List.mem_cons_self ..) (hw b c)
      | deliver k m t o =>
        refine ⟨hm, fun n => ?_⟩
        rw [show run (Act.deliver k m t o :: as) = deliver (run as) k m t o from rfl, look_deliver]
        cases o with
        | none =>
          by_cases hn : n = k
          · subst hn; rw [if_pos rfl]; exact ih n
          · rw [if_neg hn]; exact ih n
        | some c =>
          by_cases hn : n = k
          · subst hn
            rw [if_pos rfl]
            show (∀ p ∈ note (run as).mem c t m.len (look (run as) n).publs, _) ∧ ∀ b, ((note (run as).mem c t m.len (look (run as) n).publs).filter _).map _ = _
            rw [hm]
            refine ⟨note_key (ih n).1, fun b => ?_⟩
            unfold pxOf
            by_cases hb : b = c
            · subst hb
              rw [note_same (ih n).1, (ih n).2 b, if_pos ⟨rfl, rfl⟩]
              cases hp : pxOf n b as with
              | nil => simp [report]
              | cons x l => simp [report, List.getLast?_cons, Nat.add_comm, Nat.add_left_comm]
            · rw [note_other hb (ih n).1, if_neg (fun h => hb h.2.symm)]
              exact (ih n).2 b
          · rw [if_neg hn]
            unfold pxOf
            refine ⟨(ih n).1, fun b => ?_⟩
            rw [if_neg (fun h => hn h.1.symm)]
            exact (ih n).2 b
  exact fun n => ((key as hw).2 n).2

/-! ## Overall statistics -/

theorem foldl_sum {g : Info → Info → Info} (hc : ∀ t i, (g t i).count = t.count + i.count) (hb : ∀ t i, (g t i).bytes = t.bytes + i.bytes)
    (hl : ∀ t i, (g t i).last = max t.last i.last) : ∀ (l : List Info) (t : Info),
    (l.foldl g t).count = t.count + (l.map Info.count).sum ∧ (l.foldl g t).bytes = t.bytes + (l.map Info.bytes).sum ∧
    t.last ≤ (l.foldl g t).last ∧ (∀ i ∈ l, i.last ≤ (l.foldl g t).last) ∧ ((l.foldl g t).last = t.last ∨ ∃ i ∈ l, (l.foldl g t).last = i.last)
  | [], t => ⟨rfl, rfl, Nat.le_refl _, (fun _ h => nomatch h), Or.inl rfl⟩
  | i :: l, t => by
    obtain ⟨a, b, c, d, e⟩ := foldl_sum hc hb hl l (g t i)
    simp only [List.foldl_cons, List.map_cons, List.sum_cons]
    rw [hl] at c e
    refine ⟨by rw [a, hc]; omega, by rw [b, hb]; omega, by omega, ?_, ?_⟩
    · intro j hj
      rcases List.mem_cons.1 hj with rfl | hj
      · omega
      · exact d j hj
    · rcases e with e | ⟨j, hj, e⟩
      · by_cases h : t.last ≤ i.last
        · exact Or.inr ⟨i, List.mem_cons_self .., by rw [e]; omega⟩
        · exact Or.inl (by rw [e]; omega)
      · exact Or.inr ⟨j, List.mem_cons_of_mem _ hj, e⟩

/-- **C86.** The overall numbers are the sums of those of the streams, and the last time is the latest. -/
theorem overall_sums (ss : List Stream) :
    (overallRecv ss).count = (ss.map fun s => s.recv.count).sum ∧ (overallRecv ss).bytes = (ss.map fun s => s.recv.bytes).sum ∧
    (overallPub ss).count = (ss.map fun s => s.pub.count).sum ∧ (overallPub ss).bytes = (ss.map fun s => s.pub.bytes).sum ∧
    (∀ s ∈ ss, s.recv.last ≤ (overallRecv ss).last ∧ s.pub.last ≤ (overallPub ss).last) ∧
    ((overallRecv ss).last = 0 ∨ ∃ s ∈ ss, (overallRecv ss).last = s.recv.last) ∧ ((overallPub ss).last = 0 ∨ ∃ s ∈ ss, (overallPub ss).last = s.pub.last) := by
  have hl1 : ∀ t i : Info, (addRecv t i).last = max t.last i.last := by
    intro t i
    show (if t.last < i.last then i.last else t.last) = _
    split <;> omega
  have hl2 : ∀ t i : Info, (addPub t i).last = max t.last i.last := by
    intro t i
    show (if t.last < i.last then i.last else t.last) = _
    split <;> omega
  obtain ⟨a1, a2, _, a4, a5⟩ := foldl_sum (g := addRecv) (fun _ _ => rfl) (fun _ _ => rfl) hl1 (ss.map Stream.recv) Info.zero
  obtain ⟨b1, b2, _, b4, b5⟩ := foldl_sum (g := addPub) (fun _ _ => rfl) (fun _ _ => rfl) hl2 (ss.map Stream.pub) Info.zero
  simp only [List.map_map] at a1 a2 b1 b2
  refine ⟨a1.trans (by simp [Info.zero, Function.comp_def]), a2.trans (by simp [Info.zero, Function.comp_def]), b1.trans (by simp [Info.zero, Function.comp_def]),
    b2.trans (by simp [Info.zero, Function.comp_def]), ?_, ?_, ?_⟩
  · exact fun s hs => ⟨a4 _ (List.mem_map.2 ⟨s, hs, rfl⟩), b4 _ (List.mem_map.2 ⟨s, hs, rfl⟩)⟩
  · rcases a5 with h | ⟨i, hi, h⟩
    · exact Or.inl h
    · obtain ⟨s, hs, rfl⟩ := List.mem_map.1 hi
      exact Or.inr ⟨s, hs, h⟩
  · rcases b5 with h | ⟨i, hi, h⟩
    · exact Or.inl h
    · obtain ⟨s, hs, rfl⟩ := List.mem_map.1 hi
      exact Or.inr ⟨s, hs, h⟩

theorem foldl_first {g : Info → Info → Info} {P : Info → Prop}
    (hg : ∀ t i, P i → (g t i).first = if t.first = 0 then i.first else if i.first = 0 then t.first else min t.first i.first) : ∀ (l : List Info) (t : Info), (∀ i ∈ l, P i) →
    ((l.foldl g t).first = 0 → t.first = 0 ∧ ∀ i ∈ l, i.first = 0) ∧ (t.first ≠ 0 → (l.foldl g t).first ≤ t.first) ∧
    (∀ i ∈ l, i.first ≠ 0 → (l.foldl g t).first ≤ i.first) ∧ ((l.foldl g t).first = t.first ∨ ∃ i ∈ l, (l.foldl g t).first = i.first)
  | [], t, _ => ⟨fun h => ⟨h, (fun _ h => nomatch h)⟩, fun _ => Nat.le_refl _, (fun _ h => nomatch h), Or.inl rfl⟩
  | i :: l, t, hp => by
    have hi := hg t i (hp i (List.mem_cons_self ..))
    obtain ⟨a, b, c, d⟩ := foldl_first hg l (g t i) fun j hj => hp j (List.mem_cons_of_mem _ hj)
    simp only [List.foldl_cons]
    rw [hi] at a b d
    refine ⟨fun h => ?_, fun h => ?_, fun j hj h => ?_, ?_⟩
    · obtain ⟨h1, h2⟩ := a h
      split at h1
      · next ht =>
        refine ⟨ht, fun j hj => ?_⟩
        rcases List.mem_cons.1 hj with rfl | hj
        · exact h1
        · exact h2 j hj
      · split at h1 <;> omega
    · rw [if_neg h] at b
      split at b
      · exact b h
      · have := b (by omega); omega
    · rcases List.mem_cons.1 hj with rfl | hj
      · split at b
        · exact b h
        · next h0 => exact Nat.le_trans (b (by clear d; omega)) (Nat.min_le_right ..)
      · exact c j hj h
    · rcases d with d | ⟨j, hj, d⟩
      · split at d
        · exact Or.inr ⟨i, List.mem_cons_self .., d⟩
        · split at d
          · exact Or.inl d
          · by_cases hle : t.first ≤ i.first
            · exact Or.inl (by rw [d]; omega)
            · exact Or.inr ⟨i, List.mem_cons_self .., by rw [d]; omega⟩
      · exact Or.inr ⟨j, List.mem_cons_of_mem _ hj, d⟩

/-- **C86.** The overall statistics of what was published are shown if there is something, and the first time is the earliest of the streams that have one. -/
theorem overall_pub (ss : List Stream) : (shown (overallPub ss) = none ↔ ∀ s ∈ ss, s.pub.first = 0) ∧
    ∀ i, shown (overallPub ss) = some i → (∃ s ∈ ss, i.first = s.pub.first) ∧ ∀ s ∈ ss, s.pub.first ≠ 0 → i.first ≤ s.pub.first := by
  have hg : ∀ t i : Info, True → (addPub t i).first = if t.first = 0 then i.first else if i.first = 0 then t.first else min t.first i.first := by
    intro t i _
    show (if t.first = 0 then i.first else if i.first ≠ 0 ∧ t.first > i.first then i.first else t.first) = _
    split
    · rfl
    · split <;> split <;> omega
  obtain ⟨a, _, c, d⟩ := foldl_first hg (ss.map Stream.pub) Info.zero fun _ _ => trivial
  have d' : (overallPub ss).first = 0 ∨ ∃ s ∈ ss, (overallPub ss).first = s.pub.first := by
    rcases d with d | ⟨i, hi, d⟩
    · exact Or.inl d
    · obtain ⟨s, hs, rfl⟩ := List.mem_map.1 hi
      exact Or.inr ⟨s, hs, d⟩
  have c' : ∀ s ∈ ss, s.pub.first ≠ 0 → (overallPub ss).first ≤ s.pub.first := fun s hs => c _ (List.mem_map.2 ⟨s, hs, rfl⟩)
  have a' : (overallPub ss).first = 0 → ∀ s ∈ ss, s.pub.first = 0 := fun h s hs => (a h).2 _ (List.mem_map.2 ⟨s, hs, rfl⟩)
  unfold shown
  constructor
  · constructor
    · intro h
      split at h
      · next h0 => exact a' h0
      · exact absurd h (by simp)
    · intro h
      rw [if_pos]
      rcases d' with h0 | ⟨s, hs, h0⟩
      · exact h0
      · rw [h0]; exact h s hs
  · intro i hi
    split at hi
    · exact absurd hi (by simp)
    · next h0 =>
      cases hi
      exact ⟨d'.resolve_left h0, c'⟩

/-- **C86, part.** The first overall time of what was received is the earliest of the streams, if all streams have received something. -/
theorem overall_recv_partial {ss : List Stream} (h : ∀ s ∈ ss, s.recv.first ≠ 0) :
    (ss ≠ [] → shown (overallRecv ss) ≠ none) ∧ ∀ i, shown (overallRecv ss) = some i → (∃ s ∈ ss, i.first = s.recv.first) ∧ ∀ s ∈ ss, i.first ≤ s.recv.first := by
  have hg : ∀ t i : Info, i.first ≠ 0 → (addRecv t i).first = if t.first = 0 then i.first else if i.first = 0 then t.first else min t.first i.first := by
    intro t i hi
    show (if t.first = 0 then i.first else if t.first > i.first then i.first else t.first) = _
    rw [if_neg hi]
    split
    · rfl
    · split <;> omega
  obtain ⟨a, _, c, d⟩ := foldl_first hg (ss.map Stream.recv) Info.zero fun i hi => by
    obtain ⟨s, hs, rfl⟩ := List.mem_map.1 hi
    exact h s hs
  have d' : (overallRecv ss).first = 0 ∨ ∃ s ∈ ss, (overallRecv ss).first = s.recv.first := by
    rcases d with d | ⟨i, hi, d⟩
    · exact Or.inl d
    · obtain ⟨s, hs, rfl⟩ := List.mem_map.1 hi
      exact Or.inr ⟨s, hs, d⟩
  unfold shown
  constructor
  · intro hne
    split
    · next h0 =>
      match ss, hne with
      | s :: ss, _ => exact absurd ((a h0).2 _ (List.mem_map.2 ⟨s, List.mem_cons_self .., rfl⟩)) (h s (List.mem_cons_self ..))
    · simp
  · intro i hi
    split at hi
    · exact absurd hi (by simp)
    · next h0 =>
      cases hi
      exact ⟨d'.resolve_left h0, fun s hs => c _ (List.mem_map.2 ⟨s, hs, rfl⟩) (h s hs)⟩

/-- **C86 is false** of the overall statistics of what was received: if the last stream of the directory has received nothing, nothing at all is shown. -/
theorem overall_defect (ss : List Stream) {s : Stream} (h : s.recv.first = 0) : shown (overallRecv (ss ++ [s])) = none := by
  unfold shown overallRecv
  rw [List.map_append, List.foldl_append]
  simp only [List.map_cons, List.map_nil, List.foldl_cons, List.foldl_nil]
  rw [if_pos]
  show (if _ then s.recv.first else if _ then s.recv.first else _) = 0
  rw [h]
  split
  · rfl
  · next h0 => rw [if_pos (by omega)]

/-! ## What is false -/

def text (k l : Nat) : Msg := ⟨k, l, false, false, false⟩

/-- **C86 is false** of publishers after a reset: they keep their numbers. -/
theorem reset_defect : ∃ as, (∀ b c, Act.write b c ∉ as) ∧ (look (run as) 1).recv.count = 1 ∧ (look (run as) 1).publs.map (fun p => p.info.count) = [2] :=
  ⟨[.deliver 1 (text 8 3) 20 (some 5), .reset, .deliver 1 (text 7 3) 10 (some 5)], by simp, by decide, by decide⟩

/-- **C86 is false** of publishers whose names are in a buffer that is used again: publisher 5 has the message of publisher 7. -/
theorem buffer_defect : ∃ as, (look (run as) 1).publs.map (fun p => (p.name, p.info.count)) = [(5, 2)] ∧
    as.filterMap (fun a => match a with | .deliver _ _ _ b => b | _ => none) = [7, 5] :=
  ⟨[.deliver 1 (text 8 3) 20 (some 7), .write 5 7, .deliver 1 (text 7 3) 10 (some 5)], by decide, by decide⟩

def minit : MSt := ⟨init, [], []⟩

def microRun (ms : MSt) (l : List Micro) : MSt := l.foldl micro ms

theorem onStream_found {α : Type} {n : Nat} {f : Stream → Stream × α} : ∀ {ss : List Stream} {i : Nat}, (ss.findIdx? fun s => s.name = n) = some i →
    ∃ s, ss[i]? = some s ∧ onStream n f ss = (change ss i fun s => (f s).1, (f s).2)
  | [], _, h => by simp at h
  | s :: ss, i, h => by
    rw [List.findIdx?_cons] at h
    unfold onStream
    by_cases hs : s.name = n
    · simp only [hs, decide_true, if_true, Option.some.injEq] at h
      subst h
      exact ⟨s, rfl, by rw [if_pos hs]; rfl⟩
    · simp only [hs, decide_false, if_neg (show ¬ false = true by simp), Option.map_eq_some_iff] at h
      obtain ⟨j, hj, rfl⟩ := h
      obtain ⟨t, h1, h2⟩ := onStream_found (f := f) hj
      exact ⟨t, h1, by rw [if_neg hs, h2]; rfl⟩

theorem onStream_missed {α : Type} {n : Nat} {f : Stream → Stream × α} : ∀ {ss : List Stream}, (ss.find? fun s => s.name = n) = none →
    onStream n f ss = (change (ss ++ [fresh n]) ss.length fun s => (f s).1, (f (fresh n)).2)
  | [], _ => rfl
  | s :: ss, h => by
    rw [List.find?_cons] at h
    by_cases hs : s.name = n
    · simp [hs] at h
    · simp only [hs, decide_false] at h
      unfold onStream
      rw [if_neg hs, onStream_missed h]
      rfl

/-- **C86.** A thread that is alone between its steps does what the call does in one step. -/
theorem alone (st : St) (n : Nat) (m : Msg) (now : Nat) (b : Option Nat) (f x : Nat) :
    (∀ i, (st.streams.findIdx? fun s => s.name = n) = some i →
      (microRun ⟨st, [], []⟩ [.hit n (.deliver m now b)]).st = { deliver st n m now b with next := st.next + 1 } ∧
      (microRun ⟨st, [], []⟩ [.hit n (.subscribe f x)]).st = (subscribe st n f x).1) ∧
    ((st.streams.find? fun s => s.name = n) = none →
      (microRun ⟨st, [], []⟩ [.miss n, .make n, .late st.streams.length (.deliver m now b)]).st = { deliver st n m now b with next := st.next + 1 } ∧
      (microRun ⟨st, [], []⟩ [.miss n, .make n, .late st.streams.length (.subscribe f x)]).st = (subscribe st n f x).1) := by
  constructor
  · intro i hi
    have hstep : ∀ o, (microRun ⟨st, [], []⟩ [.hit n o]).st = opOn st i o := by
      intro o
      show (micro ⟨st, [], []⟩ (.hit n o)).st = _
      unfold micro
      dsimp only
      rw [hi]
    rw [hstep, hstep]
    obtain ⟨s, h1, h2⟩ := onStream_found (f := deliverAt st.mem m now b) hi
    obtain ⟨s', _, h4⟩ := onStream_found (f := subscribeAt st.next f x) hi
    constructor
    · unfold deliver
      rw [h2]
      simp [opOn, h1, opAt]
    · unfold subscribe
      rw [h4]
      simp [opOn, h1, opAt]
  · intro hi
    have hstep : ∀ o, (microRun ⟨st, [], []⟩ [.miss n, .make n, .late st.streams.length o]).st = opOn { st with streams := st.streams ++ [fresh n] } st.streams.length o := by
      intro o
      unfold microRun
      simp [micro, hi]
    rw [hstep, hstep]
    constructor
    · unfold deliver
      rw [onStream_missed hi]
      simp [opOn, opAt]
    · unfold subscribe
      rw [onStream_missed hi]
      simp [opOn, opAt]

/-- two threads that both find that the stream is not there, and make it: one delivers, the other subscribes -/
def race (m : Msg) (f x : Nat) : List Micro := [.miss 1, .miss 1, .make 1, .make 1, .late 0 (.deliver m 10 none), .late 1 (.subscribe f x)]

theorem race_keeps (later : List (Msg × Nat)) : ∀ ms : MSt, (∃ s rest, ms.st.streams = s :: rest ∧ s.name = 1 ∧ s.clients = []) → ms.st.calls = [] →
    (microRun ms (later.map fun p => .hit 1 (.deliver p.1 p.2 none))).st.calls = [] := by
  induction later with
  | nil => intro ms _ h; exact h
  | cons p later ih =>
    rintro ms ⟨s, rest, h1, h2, h3⟩ h4
    have hs : (micro ms (.hit 1 (.deliver p.1 p.2 none))) = { ms with st := opOn ms.st 0 (.deliver p.1 p.2 none) } := by
      have hi : (ms.st.streams.findIdx? fun s => s.name = 1) = some 0 := by rw [h1]; simp [List.findIdx?_cons, h2]
      unfold micro
      dsimp only
      rw [hi]
    show (microRun (micro ms (.hit 1 (.deliver p.1 p.2 none))) _).st.calls = []
    rw [hs]
    apply ih
    · exact ⟨(deliverAt ms.st.mem p.1 p.2 none s).1, rest, by simp [opOn, h1, change, opAt], h2, h3⟩
    · simp [opOn, h1, h4, opAt, deliverAt, h3, visit]

/-- **C86 is false** of calls at the same time: after a race, a client that was subscribed never hears anything, though the messages are delivered to its stream. -/
theorem race_defect (m : Msg) (f x : Nat) (later : List (Msg × Nat)) :
    ((microRun minit (race m f x)).st.streams.flatMap fun s => if s.name = 1 then s.clients else []) = [⟨1, f, x, false⟩] ∧
    (microRun minit (race m f x ++ later.map fun p => .hit 1 (.deliver p.1 p.2 none))).st.calls = [] := by
  constructor
  · rfl
  · unfold microRun
    rw [List.foldl_append]
    exact race_keeps later _ ⟨_, _, rfl, rfl, rfl⟩ rfl

/-! ## Cases -/

def json (k l : Nat) (good : Bool) : Msg := ⟨k, l, true, false, good⟩

/-- two clients of stream 1, one of them wants texts as they are, and one of stream 2; the first is closed in the end -/
def story : List Act :=
  [.deliver 1 (json 9 5 true) 40 none, .close 0, .deliver 2 (text 8 4) 30 (some 6), .deliver 1 (json 7 3 true) 20 (some 5), .subscribe 1 3 3, .subscribe 2 1 1, .setRaw 1 true,
    .subscribe 1 2 2, .subscribe 1 1 1, .publish 1 6 11, .new 1]

example : heard 0 story = [json 7 3 true] ∧ heard 1 story = [json 7 3 true, json 9 5 true] ∧ heard 2 story = [text 8 4] ∧ heard 3 story = [json 7 3 true, json 9 5 true] := by decide

example : (run story).calls = [⟨3, json 7 3 true, true⟩, ⟨1, json 7 3 true, true⟩, ⟨0, json 7 3 true, true⟩, ⟨2, text 8 4, false⟩, ⟨3, json 9 5 true, true⟩,
    ⟨1, json 9 5 true, true⟩] := by decide

example : (∀ n m t b, Act.deliver n m t b ∈ story → ¬ m.Bad) ∧ (∀ b c, Act.write b c ∉ story) := by
  constructor
  · intro n m t b h
    simp only [story, List.mem_cons, Act.deliver.injEq, reduceCtorEq, false_or, List.not_mem_nil, or_false] at h
    rcases h with h | h | h <;> (obtain ⟨_, rfl, _⟩ := h; decide)
  · simp [story]

example : (look (run story) 1).recv = ⟨20, 40, 2, 8⟩ ∧ (look (run story) 1).pub = ⟨11, 11, 1, 6⟩ ∧ subscriberCount (run story) 1 = 2 ∧ (subscribe (run story) 1 2 2).2 = none ∧
    (subscribe (run story) 1 1 1).2 = some 4 ∧ report (pxOf 1 5 story) = [⟨20, 20, 1, 3⟩] := by decide

example : (json 1 1 false).Bad ∧ subsOf story 1 = [] ++ ⟨3, 1, 3, 3, false⟩ :: [⟨1, 1, 2, 2, true⟩] ∧
    subsOf (.subscribe 1 9 9 :: story) 1 = [] ++ ⟨4, 1, 9, 9, false⟩ :: [⟨3, 1, 3, 3, false⟩, ⟨1, 1, 2, 2, true⟩] := by decide

example : (∀ s ∈ (run story).streams, s.recv.first ≠ 0) ∧ shown (overallRecv (run story).streams) = some ⟨20, 40, 3, 12⟩ ∧ shown (overallPub (run story).streams) = some ⟨11, 11, 1, 6⟩ := by
  decide

end Verif.DStream
