import Verif.StreamStat.Cover

/-!
# C84: what the statistics of streams say
-/

namespace Verif.StreamStat

theorem streamReps_mem : ∀ {ss : List Stream} {rs : List StreamRep}, streamReps ss = .ok rs →
    rs = ss.map (fun s => ⟨s.name, s.rx, s.srcs, s.ents.map fun e => (e.client, e.tx, e.drops)⟩) ∧ ∀ s ∈ ss, ∀ e ∈ s.ents, e.bound = true
  | [], rs, h => by cases h; simp
  | s :: ss, rs, h => by
    rw [streamReps] at h
    split at h
    · cases h
    · rename_i r hr
      split at h
      · cases h
      · rename_i rs' hrs
        cases h
        unfold streamRep at hr
        split at hr
        · rename_i hb
          cases hr
          obtain ⟨a1, a2⟩ := streamReps_mem hrs
          refine ⟨by rw [a1]; rfl, ?_⟩
          intro x hx
          rcases List.mem_cons.1 hx with rfl | hx
          · exact List.all_eq_true.1 hb
          · exact a2 x hx
        · cases hr

theorem streamReps_ok : ∀ {ss : List Stream}, (∀ s ∈ ss, ∀ e ∈ s.ents, e.bound = true) → ∃ rs, streamReps ss = .ok rs
  | [], _ => ⟨[], rfl⟩
  | s :: ss, h => by
    obtain ⟨rs, hrs⟩ := streamReps_ok (ss := ss) fun x hx => h x (by simp [hx])
    have hb : s.ents.all (·.bound) = true := List.all_eq_true.2 (h s (by simp))
    rw [streamReps, streamRep, if_pos hb, hrs]
    exact ⟨_, rfl⟩

theorem readStreams_reps {st st' : St} {sel : Nat → Bool} {reset : Bool} {rs : List StreamRep} (h : readStreams st sel reset = .ok (st', rs)) :
    streamReps (st.streams.filter fun s => sel s.name) = .ok rs := by
  unfold readStreams at h
  split at h
  · cases h
  · rename_i hr; cases h; exact hr

/-- **C84.** The statistics of the streams that are asked for: one report for each of the streams, without a second for the same name, and one for every name
on which a message ever came.  In each, the counter of the stream is that of its messages since the last reset; so is that of each source, and no source that has
messages is missing or there twice; and exactly the open clients that want the stream are there, once, and the two counters of each are those of the messages of the stream that it took and that it refused. -/
theorem stream_stats {st st' : St} {sel : Nat → Bool} {reset : Bool} {rs : List StreamRep} (hr : Reachable st) (h : readStreams st sel reset = .ok (st', rs)) :
    (rs.map StreamRep.name).Nodup ∧ (∀ n, (∃ r ∈ rs, r.name = n) ↔ sel n = true ∧ ∃ s ∈ st.streams, s.name = n) ∧
      (∀ n a b t lv, Ev.recv n a b t lv ∈ st.log → sel n = true → ∃ r ∈ rs, r.name = n) ∧
      ∀ r ∈ rs, Tally (rxOf r.name st.log) r.rx ∧
        (r.srcs.map Prod.fst).Nodup ∧ (∀ a c, (a, c) ∈ r.srcs → Tally (srcOf r.name a st.log) c) ∧ (∀ a, srcOf r.name a st.log ≠ [] → ∃ c, (a, c) ∈ r.srcs) ∧
        (r.pairs.map Prod.fst).Nodup ∧
        (∀ c, (∃ p, (c, p) ∈ r.pairs) ↔ ∃ k, st.clients[c]? = some k ∧ k.isOpen = true ∧ Wants k.m r.name) ∧
        ∀ c tx dr, (c, tx, dr) ∈ r.pairs → Tally (pairOf r.name c false st.log) tx ∧ Tally (pairOf r.name c true st.log) dr := by
  have hi := inv_reach hr
  obtain ⟨rfl, hb⟩ := streamReps_mem (readStreams_reps h)
  have hiff : ∀ n, (∃ r ∈ (st.streams.filter fun s => sel s.name).map (fun s => StreamRep.mk s.name s.rx s.srcs (s.ents.map fun e => (e.client, e.tx, e.drops))), r.name = n) ↔
      sel n = true ∧ ∃ s ∈ st.streams, s.name = n := by
    intro n
    constructor
    · rintro ⟨r, hr, rfl⟩
      obtain ⟨s, hs, rfl⟩ := List.mem_map.1 hr
      exact ⟨(List.mem_filter.1 hs).2, s, (List.mem_filter.1 hs).1, rfl⟩
    · rintro ⟨h1, s, hs, rfl⟩
      exact ⟨_, List.mem_map.2 ⟨s, List.mem_filter.2 ⟨hs, h1⟩, rfl⟩, rfl⟩
  refine ⟨?_, hiff, ?_, ?_⟩
  · rw [List.map_map]
    exact hi.names.sublist (List.Sublist.map _ List.filter_sublist)
  · intro n a b t lv he hs
    exact (hiff n).2 ⟨hs, hi.lrecv n a b t lv he⟩
  · intro r hrm
    obtain ⟨s, hs, rfl⟩ := List.mem_map.1 hrm
    have hS := hi.strm s (List.mem_filter.1 hs).1
    refine ⟨?_, hS.keys, ?_, ?_, ?_, ?_, ?_⟩
    · dsimp only; rw [hS.rx]; exact tally_acc _
    · intro a c hc
      have := hS.srcs (a, c) hc
      dsimp only at this ⊢
      rw [this]; exact tally_acc _
    · intro a ha
      by_cases hm : a ∈ s.srcs.map Prod.fst
      · obtain ⟨p, hp, rfl⟩ := List.mem_map.1 hm
        exact ⟨p.2, hp⟩
      · exact absurd (hS.miss a hm) ha
    · dsimp only
      rw [List.map_map]
      exact hS.once
    · intro c
      dsimp only
      rw [← bound_iff hr (List.mem_filter.1 hs).1 c]
      constructor
      · rintro ⟨p, hp⟩
        obtain ⟨e, he, hh⟩ := List.mem_map.1 hp
        injection hh with e1 _
        exact ⟨e, he, e1, hb s hs e he⟩
      · rintro ⟨e, he, rfl, -⟩
        exact ⟨_, List.mem_map.2 ⟨e, he, rfl⟩⟩
    · intro c tx dr hc
      obtain ⟨e, he, hh⟩ := List.mem_map.1 hc
      injection hh with e1 e2
      injection e2 with e2 e3
      subst e1 e2 e3
      obtain ⟨a1, a2⟩ := hS.pair e he (hb s hs e he)
      rw [a1, a2]
      exact ⟨tally_acc _, tally_acc _⟩

/-- **C84.** The statistics of the clients: one report for each client that is open, and for no other.  Its counters are those of the messages it took and refused
since the last reset, and so are those of each stream that there is and that it wants, one for each. -/
theorem client_stats {st : St} {reset : Bool} (hr : Reachable st) :
    let rs := (readClients st reset).2
    (rs.map ClientRep.client).Nodup ∧ (∀ c, (∃ r ∈ rs, r.client = c) ↔ ∃ k, st.clients[c]? = some k ∧ k.isOpen = true) ∧
      ∀ r ∈ rs, Tally (clientOf r.client false st.log) r.tx ∧ Tally (clientOf r.client true st.log) r.drops ∧
        (r.pairs.map Prod.fst).Nodup ∧
        (∀ n, (∃ p, (n, p) ∈ r.pairs) ↔ (∃ s ∈ st.streams, s.name = n) ∧ ∃ k, st.clients[r.client]? = some k ∧ Wants k.m n) ∧
        ∀ n tx dr, (n, tx, dr) ∈ r.pairs → Tally (pairOf n r.client false st.log) tx ∧ Tally (pairOf n r.client true st.log) dr := by
  have hi := inv_reach hr
  have hmem : ∀ r ∈ (readClients st reset).2, ∃ k, st.clients[r.client]? = some k ∧ k.isOpen = true ∧ r = ⟨r.client, k.tx, k.drops, pairsOf st r.client⟩ := by
    intro r hr
    obtain ⟨c, hc, hrc⟩ := List.mem_flatMap.1 hr
    obtain ⟨k, hk, ho⟩ := (visited_iff hi).1 (List.mem_filter.1 hc).2
    rw [clientRep, hk] at hrc
    obtain rfl := List.mem_singleton.1 hrc
    exact ⟨k, hk, ho, rfl⟩
  have hmap : ∀ cs : List Nat, (∀ c ∈ cs, visited st c = true) → (cs.flatMap (clientRep st)).map ClientRep.client = cs := by
    intro cs
    induction cs with
    | nil => intro _; rfl
    | cons c cs ih =>
      intro hv
      obtain ⟨k, hk, -⟩ := (visited_iff hi).1 (hv c (by simp))
      rw [List.flatMap_cons, List.map_append, ih fun x hx => hv x (by simp [hx]), clientRep, hk]
      rfl
  dsimp only
  have hm : ((readClients st reset).2).map ClientRep.client = (List.range st.clients.length).filter (visited st) :=
    hmap _ fun c hc => (List.mem_filter.1 hc).2
  refine ⟨by rw [hm]; exact List.nodup_range.filter _, ?_, ?_⟩
  · intro c
    constructor
    · rintro ⟨r, hr, rfl⟩
      obtain ⟨k, hk, ho, -⟩ := hmem r hr
      exact ⟨k, hk, ho⟩
    · rintro ⟨k, hk, ho⟩
      have : c ∈ (readClients st reset).2.map ClientRep.client := by
        rw [hm]
        exact List.mem_filter.2 ⟨List.mem_range.2 (get_lt hk), (visited_iff hi).2 ⟨k, hk, ho⟩⟩
      obtain ⟨r, hr, e⟩ := List.mem_map.1 this
      exact ⟨r, hr, e⟩
  · intro r hrm
    obtain ⟨k, hk, ho, e⟩ := hmem r hrm
    generalize r.client = c at hk e
    subst e
    obtain ⟨a1, a2⟩ := hi.cl c k hk ho
    dsimp only
    refine ⟨by rw [a1]; exact tally_acc _, by rw [a2]; exact tally_acc _, ?_, ?_, ?_⟩
    · have hone : ∀ s ∈ st.streams, ((s.ents.filter fun e => e.client == c).map fun e => (s.name, e.tx, e.drops)).map Prod.fst = if (s.ents.filter fun e => e.client == c) = [] then [] else [s.name] := by
        intro s hs
        have hlen : ∀ es : List Ent, (es.map Ent.client).Nodup → (es.filter fun e => e.client == c).length ≤ 1 := by
          intro es
          induction es with
          | nil => intro _; simp
          | cons e es ih =>
            intro hn
            rw [List.map_cons, List.nodup_cons] at hn
            by_cases he : e.client = c
            · have : (es.filter fun e => e.client == c) = [] := by
                rw [List.filter_eq_nil_iff]
                intro x hx hxc
                exact hn.1 (List.mem_map.2 ⟨x, hx, by rw [he]; simpa using hxc⟩)
              simp [he, this]
            · rw [List.filter_cons_of_neg (by simpa using he)]
              exact ih hn.2
        have := hlen s.ents (hi.strm s hs).once
        generalize s.ents.filter (fun e => e.client == c) = l at this ⊢
        match l, this with
        | [], _ => rfl
        | [e], _ => rfl
        | e :: e' :: es, hh => exact absurd hh (by simp)
      have hgo : ∀ ss : List Stream, (∀ s ∈ ss, s ∈ st.streams) → (ss.map Stream.name).Nodup →
          ((ss.flatMap fun s => (s.ents.filter fun e => e.client == c).map fun e => (s.name, e.tx, e.drops)).map Prod.fst).Sublist (ss.map Stream.name) := by
        intro ss
        induction ss with
        | nil => intro _ _; simp
        | cons s ss ih =>
          intro hs hn
          rw [List.map_cons, List.nodup_cons] at hn
          have := ih (fun x hx => hs x (by simp [hx])) hn.2
          rw [List.flatMap_cons, List.map_append, hone s (hs s (by simp)), List.map_cons]
          split
          · exact this.trans (List.sublist_cons_self _ _)
          · exact List.Sublist.cons_cons _ this
      exact hi.names.sublist (hgo st.streams (fun _ h => h) hi.names)
    · intro n
      constructor
      · rintro ⟨p, hp⟩
        obtain ⟨s, hs, hx⟩ := List.mem_flatMap.1 hp
        obtain ⟨e, he, hh⟩ := List.mem_map.1 hx
        injection hh with e1 _
        obtain ⟨he1, he2⟩ := List.mem_filter.1 he
        have hec : e.client = c := by simpa using he2
        obtain ⟨k', hk', -, hw⟩ := (bound_iff hr hs c).1 ⟨e, he1, hec, (hi.strm s hs).bnd e he1 k (by rw [hec]; exact hk) ho⟩
        subst e1
        exact ⟨⟨s, hs, rfl⟩, k', hk', hw⟩
      · rintro ⟨⟨s, hs, rfl⟩, k', hk', hw⟩
        obtain rfl : k = k' := Option.some.inj (hk.symm.trans hk')
        obtain ⟨e, he, rfl, -⟩ := (bound_iff hr hs c).2 ⟨k, hk, ho, hw⟩
        exact ⟨_, List.mem_flatMap.2 ⟨s, hs, List.mem_map.2 ⟨e, List.mem_filter.2 ⟨he, by simp⟩, rfl⟩⟩⟩
    · intro n tx dr hp
      obtain ⟨s, hs, hx⟩ := List.mem_flatMap.1 hp
      obtain ⟨e, he, hh⟩ := List.mem_map.1 hx
      injection hh with e1 e2
      injection e2 with e2 e3
      subst e1 e2 e3
      obtain ⟨he1, he2⟩ := List.mem_filter.1 he
      have hec : e.client = c := by simpa using he2
      subst hec
      obtain ⟨b1, b2⟩ := (hi.strm s hs).pair e he1 ((hi.strm s hs).bnd e he1 k hk ho)
      rw [b1, b2]
      exact ⟨tally_acc _, tally_acc _⟩

/-- **C84.** Statistics that are read without a reset are as before. -/
theorem read_pure {st : St} : (readClients st false).1 = st ∧ ∀ {st' : St} {sel : Nat → Bool} {rs : List StreamRep}, readStreams st sel false = .ok (st', rs) → st' = st := by
  refine ⟨rfl, ?_⟩
  intro st' sel rs h
  unfold readStreams at h
  split at h
  · cases h
  · cases h; rfl

/-- **C84.** A reset with the statistics of streams begins those of the streams that were read anew, but not the counters of refused messages of their clients (see
`drops_defect`), and nothing of other streams or of the clients themselves. -/
theorem stream_reset_partial {st st' : St} {sel : Nat → Bool} {rs : List StreamRep} (h : readStreams st sel true = .ok (st', rs)) :
    (∀ r ∈ rs, rxOf r.name st'.log = [] ∧ (∀ a, srcOf r.name a st'.log = []) ∧ ∀ c, pairOf r.name c false st'.log = []) ∧
      (∀ n, (∀ r ∈ rs, r.name ≠ n) → rxOf n st'.log = rxOf n st.log ∧ (∀ a, srcOf n a st'.log = srcOf n a st.log) ∧ ∀ c f, pairOf n c f st'.log = pairOf n c f st.log) ∧
      ∀ c f, clientOf c f st'.log = clientOf c f st.log := by
  have hr := (streamReps_mem (readStreams_reps h)).1
  unfold readStreams at h
  split at h
  · cases h
  · rename_i hx
    cases h
    rw [if_pos rfl]
    have hl : ((st.streams.filter fun s => sel s.name).map fun s => Ev.resetStream s.name) = (rs.map StreamRep.name).map Ev.resetStream := by
      rw [hr, List.map_map, List.map_map]; rfl
    dsimp only
    rw [hl]
    refine ⟨?_, ?_, fun c f => client_rs⟩
    · intro r hr
      have : r.name ∈ rs.map StreamRep.name := List.mem_map.2 ⟨r, hr, rfl⟩
      exact ⟨by rw [rx_rs, if_pos this], fun a => by rw [src_rs, if_pos this], fun c => by rw [pair_rs, if_pos ⟨this, rfl⟩]⟩
    · intro n hn
      have : n ∉ rs.map StreamRep.name := by
        intro hh
        obtain ⟨r, hr, e⟩ := List.mem_map.1 hh
        exact hn r hr e
      exact ⟨by rw [rx_rs, if_neg this], fun a => by rw [src_rs, if_neg this], fun c f => by rw [pair_rs, if_neg (fun x => this x.1)]⟩

/-- **C84.** A reset with the statistics of clients begins those of the open clients anew, and nothing of the streams themselves. -/
theorem client_reset {st : St} (hr : Reachable st) :
    (∀ (c : Nat) (k : Client), st.clients[c]? = some k → k.isOpen = true →
      ∀ f, clientOf c f (readClients st true).1.log = [] ∧ ∀ n, pairOf n c f (readClients st true).1.log = []) ∧
      ∀ n, rxOf n (readClients st true).1.log = rxOf n st.log ∧ ∀ a, srcOf n a (readClients st true).1.log = srcOf n a st.log := by
  refine ⟨?_, fun n => ⟨rx_rc, fun a => src_rc⟩⟩
  intro c k hk ho f
  have hv := (visited_iff (inv_reach hr)).2 ⟨k, hk, ho⟩
  have hm : c ∈ (List.range st.clients.length).filter (visited st) := List.mem_filter.2 ⟨List.mem_range.2 (get_lt hk), hv⟩
  exact ⟨client_rc.trans (if_pos hm), fun n => pair_rc.trans (if_pos hm)⟩

/-- **C84.** The reset of everything begins everything anew. -/
theorem all_reset {st : St} : (∀ n, rxOf n (resetAll st).log = [] ∧ ∀ a, srcOf n a (resetAll st).log = []) ∧
    (∀ c f, clientOf c f (resetAll st).log = []) ∧ ∀ n c f, pairOf n c f (resetAll st).log = [] :=
  ⟨fun _ => ⟨rfl, fun _ => rfl⟩, fun _ _ => rfl, fun _ _ _ => rfl⟩

theorem loop_log {lv : Int} {t name b : Nat} {fails : Nat → Bool} : ∀ {es : List Ent} {cs : List Client} {log : List Ev},
    ∃ es' cs' gc, loop lv (if lv ≤ 0 then none else some t) name b false fails es cs log =
      .ok (es', cs', (((es.filter (·.bound)).map fun e => Ev.call name e.client (fails e.client) b (if lv ≤ 0 then 0 else t) lv).reverse ++ log), gc)
  | [], cs, log => ⟨[], cs, false, rfl⟩
  | e :: es, cs, log => by
    rw [loop.eq_def]
    dsimp only
    by_cases hb : e.bound = true
    · rw [if_neg (by simp [hb]), if_neg (by simp), List.filter_cons_of_pos (by simpa using hb)]
      by_cases hl : 0 < lv
      · have hn : ¬ lv ≤ 0 := by omega
        rw [if_pos hl]
        simp only [if_neg hn]
        obtain ⟨es', cs', gc, h⟩ := loop_log (lv := lv) (t := t) (name := name) (b := b) (fails := fails) (es := es)
          (cs := cs.modify e.client fun k => if fails e.client then { k with drops := update k.drops t b } else { k with tx := update k.tx t b })
          (log := Ev.call name e.client (fails e.client) b t lv :: log)
        simp only [if_neg hn] at h
        rw [h]
        rw [List.map_cons, List.reverse_cons, List.append_assoc]
        exact ⟨_, _, _, rfl⟩
      · have hn : lv ≤ 0 := by omega
        rw [if_neg hl]
        simp only [if_pos hn]
        obtain ⟨es', cs', gc, h⟩ := loop_log (lv := lv) (t := t) (name := name) (b := b) (fails := fails) (es := es) (cs := cs) (log := Ev.call name e.client (fails e.client) b 0 lv :: log)
        simp only [if_pos hn] at h
        rw [h]
        rw [List.map_cons, List.reverse_cons, List.append_assoc]
        exact ⟨_, _, _, rfl⟩
    · rw [if_pos (by simp [hb]), List.filter_cons_of_neg (by simpa using hb)]
      obtain ⟨es', cs', gc, h⟩ := loop_log (lv := lv) (t := t) (name := name) (b := b) (fails := fails) (es := es) (cs := cs) (log := log)
      rw [h]
      exact ⟨_, _, _, rfl⟩

/-- **C84.** What the counters are counters of: a delivery, while nobody sets the level, always succeeds and adds to the history the message and one call of each open client
that wants the stream, with the result of its function, the length of the message, its time and the level. -/
theorem deliver_history {st : St} (hr : Reachable st) {name src b now : Nat} {fails : Nat → Bool} :
    ∃ (st' : St) (cs : List Nat), deliver st name src b now false fails none = .ok st' ∧ st'.level = st.level ∧ cs.Nodup ∧
      (∀ c, c ∈ cs ↔ ∃ k, st.clients[c]? = some k ∧ k.isOpen = true ∧ Wants k.m name) ∧
      st'.log = (cs.map fun c => Ev.call name c (fails c) b (if st.level ≤ 0 then 0 else now) st.level).reverse ++ Ev.recv name src b now st.level :: st.log := by
  have hi := inv_reach hr
  obtain ⟨hg, hex, hcl, hlog, -, hlv⟩ := inv_get (n := name) hi
  have hcov := cov_get (n := name) hi (cov_reach hr)
  rw [deliver]
  dsimp only
  generalize streamGet st name = g at hlv hlog hex hcl hg hcov ⊢
  cases hf : g.streams.find? (fun s => s.name == name) with
  | none =>
    obtain ⟨s, hs, hn⟩ := hex
    have := List.find?_eq_none.1 hf s hs
    simp [hn] at this
  | some s =>
    dsimp only
    have hs : s ∈ g.streams := List.mem_of_find?_eq_some hf
    have hn : s.name = name := by simpa using List.find?_some hf
    obtain ⟨es', cs', gc, h⟩ := loop_log (lv := g.level) (t := now) (name := name) (b := b) (fails := fails) (es := s.ents) (cs := g.clients) (log := Ev.recv name src b now g.level :: g.log)
    rw [Option.getD_none, h]
    refine ⟨_, (s.ents.filter (·.bound)).map Ent.client, rfl, hlv, ?_, ?_, ?_⟩
    · exact (hg.strm s hs).once.sublist (List.Sublist.map _ List.filter_sublist)
    · intro c
      rw [← hcl, ← hn, ← bound_iff' hg hcov hs c]
      constructor
      · intro hc
        obtain ⟨e, he, rfl⟩ := List.mem_map.1 hc
        exact ⟨e, (List.mem_filter.1 he).1, rfl, (List.mem_filter.1 he).2⟩
      · rintro ⟨e, he, rfl, hb⟩
        exact List.mem_map.2 ⟨e, List.mem_filter.2 ⟨he, hb⟩, rfl⟩
    · dsimp only
      rw [hlv, hlog, List.map_map]
      rfl

/-- **C84.** Statistics of streams can be read whenever no client of these streams was closed since they were last delivered to. -/
theorem read_ok {st : St} {sel : Nat → Bool} {reset : Bool} (h : ∀ s ∈ st.streams, sel s.name = true → ∀ e ∈ s.ents, e.bound = true) :
    ∃ st' rs, readStreams st sel reset = .ok (st', rs) := by
  obtain ⟨rs, hrs⟩ := streamReps_ok (ss := st.streams.filter fun s => sel s.name) fun s hs => h s (List.mem_filter.1 hs).1 (List.mem_filter.1 hs).2
  unfold readStreams
  rw [hrs]
  exact ⟨_, _, rfl⟩

/-- **C84 is false** of the reading of statistics after a client of a stream was closed and before the next message of the stream: the client of an entry that has
none is read. -/
theorem null_defect : ∃ st, Reachable st ∧ (readStreams st (fun _ => true) false).toOption = none :=
  ⟨close (subscribe init (.exact 7) true) 0, ⟨[.subscribe (.exact 7) true, .close 0], rfl⟩, rfl⟩

/-- **C84 is false** of a reset of statistics of streams: the number of messages that a client refused stays. -/
theorem drops_defect : ∃ st st' rs, Reachable st ∧ readStreams st (fun _ => true) true = .ok (st', rs) ∧ ∃ s ∈ st'.streams, ∃ e ∈ s.ents, e.drops.count = 1 ∧ s.rx.count = 0 :=
  ⟨_, _, _, ⟨[.subscribe (.exact 7) true, .deliver 7 1 10 5 false (fun _ => true) none], rfl⟩, rfl,
    ⟨7, zero, [], [⟨0, true, zero, ⟨5, 5, 1, 10⟩⟩]⟩, List.mem_singleton.2 rfl, _, List.mem_singleton.2 rfl, rfl, rfl⟩

/-- **C84 is false** if the statistics are turned on while a message is delivered: a time that was never set is counted. -/
theorem uninit_defect : ∃ st, Reachable st ∧ (deliver st 7 1 10 5 false (fun _ => false) (some 1)).toOption.isNone :=
  ⟨_, ⟨[.subscribe (.exact 7) true, .setLevel 0], rfl⟩, rfl⟩

/-- two clients, two streams, two sources, a refused message and a reset -/
def story : List Act :=
  [.subscribe (.exact 7) true, .subscribe (.regex fun n => n > 5) false, .setLevel 2,
   .deliver 7 1 10 500 false (fun c => c == 1) none, .deliver 7 2 20 400 false (fun _ => false) none, .deliver 8 1 5 600 false (fun _ => false) none]

example : (match run init story with
    | .ok st => (match readStreams st (fun _ => true) false with
      | .ok (_, rs) => rs == [⟨7, ⟨400, 500, 2, 30⟩, [(1, ⟨500, 500, 1, 10⟩), (2, ⟨400, 400, 1, 20⟩)], [(0, ⟨400, 500, 2, 30⟩, zero), (1, ⟨400, 400, 1, 20⟩, ⟨500, 500, 1, 10⟩)]⟩,
                              ⟨8, ⟨600, 600, 1, 5⟩, [(1, ⟨600, 600, 1, 5⟩)], [(1, ⟨600, 600, 1, 5⟩, zero)]⟩]
      | .error _ => false) && (readClients st false).2 ==
        [⟨0, ⟨400, 500, 2, 30⟩, zero, [(7, ⟨400, 500, 2, 30⟩, zero)]⟩,
         ⟨1, ⟨400, 600, 2, 25⟩, ⟨500, 500, 1, 10⟩, [(7, ⟨400, 400, 1, 20⟩, ⟨500, 500, 1, 10⟩), (8, ⟨600, 600, 1, 5⟩, zero)]⟩]
    | .error _ => false) = true := by decide +kernel

example : (match run init (story ++ [.readClients true, .readStreams (fun n => n == 8) true, .deliver 7 3 1 700 false (fun _ => false) none]) with
    | .ok st => (st.streams.map fun s => (s.rx.count, s.srcs.length)) == [(3, 3), (0, 1)] && (st.clients.map fun k => k.tx.count) == [1, 1]
    | .error _ => false) = true := by decide +kernel

end Verif.StreamStat
