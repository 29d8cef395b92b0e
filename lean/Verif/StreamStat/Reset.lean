import Verif.StreamStat.Deliver

/-!
# Reads and resets keep the invariant
-/

namespace Verif.StreamStat

theorem Inv.change {st : St} (h : Inv st) (g : Stream → Stream) (cs' : List Client) (log' : List Ev) (hname : ∀ s, (g s).name = s.name)
    (hents : ∀ s, (g s).ents.map (fun e => (e.client, e.bound)) = s.ents.map (fun e => (e.client, e.bound)))
    (hkeys : ∀ s, (g s).srcs.map Prod.fst = s.srcs.map Prod.fst)
    (hsame : ∀ c : Nat, (cs'[c]?).map shape = (st.clients[c]?).map shape)
    (hrx : ∀ s ∈ st.streams, (g s).rx = acc (rxOf s.name log'))
    (hsrc : ∀ s ∈ st.streams, ∀ p ∈ (g s).srcs, p.2 = acc (srcOf s.name p.1 log'))
    (hmiss : ∀ n a, srcOf n a st.log = [] → srcOf n a log' = [])
    (hpair : ∀ s ∈ st.streams, PairsOK s.name log' (g s).ents)
    (hcl : ClientsOK log' cs')
    (hcall : ∀ n c f b t lv, Ev.call n c f b t lv ∈ log' → Ev.call n c f b t lv ∈ st.log)
    (hrecv : ∀ n s b t lv, Ev.recv n s b t lv ∈ log' → Ev.recv n s b t lv ∈ st.log) :
    Inv { st with clients := cs', streams := st.streams.map g, log := log' } := by
  have hlen : cs'.length = st.clients.length := by
    apply Nat.le_antisymm
    · apply Nat.le_of_not_lt
      intro hh
      have := hsame st.clients.length
      rw [List.getElem?_eq_getElem hh, List.getElem?_eq_none (Nat.le_refl _)] at this
      cases this
    · apply Nat.le_of_not_lt
      intro hh
      have := hsame cs'.length
      rw [List.getElem?_eq_getElem hh, List.getElem?_eq_none (Nat.le_refl _)] at this
      cases this
  have fwd : ∀ (c : Nat) (k : Client), st.clients[c]? = some k → ∃ k', cs'[c]? = some k' ∧ k'.isOpen = k.isOpen ∧ k'.m = k.m := by
    intro c k hk
    have := hsame c
    rw [hk] at this
    cases hx : cs'[c]? with
    | none => rw [hx] at this; cases this
    | some k' =>
      rw [hx] at this
      have : shape k' = shape k := Option.some.inj this
      simp only [shape, Prod.mk.injEq] at this
      exact ⟨k', rfl, this.2.2, this.1⟩
  have bwd : ∀ (c : Nat) (k : Client), cs'[c]? = some k → ∃ k', st.clients[c]? = some k' ∧ k'.isOpen = k.isOpen ∧ k'.m = k.m := by
    intro c k hk
    have := hsame c
    rw [hk] at this
    cases hx : st.clients[c]? with
    | none => rw [hx] at this; cases this
    | some k' =>
      rw [hx] at this
      have : shape k = shape k' := Option.some.inj this
      simp only [shape, Prod.mk.injEq] at this
      exact ⟨k', rfl, this.2.2.symm, this.1.symm⟩
  have ebwd : ∀ s, ∀ e ∈ (g s).ents, ∃ e0 ∈ s.ents, e0.client = e.client ∧ e0.bound = e.bound := by
    intro s e he
    have : (e.client, e.bound) ∈ (g s).ents.map (fun e => (e.client, e.bound)) := List.mem_map.2 ⟨e, he, rfl⟩
    rw [hents] at this
    obtain ⟨e0, he0, hh⟩ := List.mem_map.1 this
    injection hh with a1 a2
    exact ⟨e0, he0, a1, a2⟩
  constructor
  · dsimp only
    rw [List.map_map]
    have : Stream.name ∘ g = Stream.name := funext hname
    rw [this]
    exact h.names
  · intro s1 hs1
    obtain ⟨s, hs, rfl⟩ := List.mem_map.1 hs1
    have hS := h.strm s hs
    constructor
    · rw [hname]; exact hrx s hs
    · rw [hkeys]; exact hS.keys
    · rw [hname]; exact hsrc s hs
    · intro a ha
      rw [hkeys] at ha
      rw [hname]
      exact hmiss _ _ (hS.miss a ha)
    · have := congrArg (List.map Prod.fst) (hents s)
      simp only [List.map_map] at this
      exact (show (g s).ents.map Ent.client = s.ents.map Ent.client from this) ▸ hS.once
    · intro e he
      obtain ⟨e0, he0, a1, -⟩ := ebwd s e he
      dsimp only
      rw [hlen, ← a1]
      exact hS.small e0 he0
    · intro e he hb
      obtain ⟨e0, he0, a1, a2⟩ := ebwd s e he
      obtain ⟨k, hk, ho⟩ := hS.live e0 he0 (a2.trans hb)
      obtain ⟨k', hk', b1, -⟩ := fwd _ k hk
      exact ⟨k', a1 ▸ hk', b1.trans ho⟩
    · intro e he k hk ho
      obtain ⟨e0, he0, a1, a2⟩ := ebwd s e he
      obtain ⟨k', hk', b1, -⟩ := bwd _ k hk
      rw [← a2]
      exact hS.bnd e0 he0 k' (by rw [a1]; exact hk') (b1.trans ho)
    · rw [hname]; exact hpair s hs
  · exact hcl
  · intro c k hk ho hr
    obtain ⟨k', hk', a1, a2⟩ := bwd c k hk
    exact h.opnR c k' hk' (a1.trans ho) (by rw [a2]; exact hr)
  · intro c k hk ho hr
    obtain ⟨k', hk', a1, a2⟩ := bwd c k hk
    obtain ⟨s, hs, e, he, b1, b2⟩ := h.opnE c k' hk' (a1.trans ho) (by rw [a2]; exact hr)
    have : (e.client, e.bound) ∈ (g s).ents.map (fun e => (e.client, e.bound)) := by rw [hents]; exact List.mem_map.2 ⟨e, he, rfl⟩
    obtain ⟨e', he', hh⟩ := List.mem_map.1 this
    injection hh with c1 c2
    exact ⟨g s, List.mem_map.2 ⟨s, hs, rfl⟩, e', he', c1.trans b1, c2.trans b2⟩
  · exact h.rqn
  · intro c hc
    obtain ⟨k, hk, ho, hr⟩ := h.rq c hc
    obtain ⟨k', hk', a1, a2⟩ := fwd c k hk
    exact ⟨k', hk', a1.trans ho, by rw [a2]; exact hr⟩
  · intro n c f b t lv hh
    obtain ⟨a1, s, hs, a2⟩ := h.lcall n c f b t lv (hcall _ _ _ _ _ _ hh)
    exact ⟨by dsimp only; rw [hlen]; exact a1, g s, List.mem_map.2 ⟨s, hs, rfl⟩, (hname s).trans a2⟩
  · intro n s b t lv hh
    obtain ⟨x, hx, a2⟩ := h.lrecv n s b t lv (hrecv _ _ _ _ _ hh)
    exact ⟨g x, List.mem_map.2 ⟨x, hx, rfl⟩, (hname x).trans a2⟩

/-! ### the statistics of streams are read -/

theorem rx_rs {n : Nat} {log : List Ev} : ∀ {ns : List Nat}, rxOf n (ns.map Ev.resetStream ++ log) = if n ∈ ns then [] else rxOf n log
  | [] => by simp
  | m :: ns => by
    simp only [List.map_cons, List.cons_append, rxOf, rx_rs (ns := ns), List.mem_cons]
    by_cases h : m = n
    · simp [h]
    · have : n ≠ m := fun e => h e.symm
      simp [h, this]

theorem src_rs {n a : Nat} {log : List Ev} : ∀ {ns : List Nat}, srcOf n a (ns.map Ev.resetStream ++ log) = if n ∈ ns then [] else srcOf n a log
  | [] => by simp
  | m :: ns => by
    simp only [List.map_cons, List.cons_append, srcOf, src_rs (ns := ns), List.mem_cons]
    by_cases h : m = n
    · simp [h]
    · have : n ≠ m := fun e => h e.symm
      simp [h, this]

theorem client_rs {c : Nat} {f : Bool} {log : List Ev} : ∀ {ns : List Nat}, clientOf c f (ns.map Ev.resetStream ++ log) = clientOf c f log
  | [] => rfl
  | m :: ns => by
    simp only [List.map_cons, List.cons_append, clientOf, client_rs (ns := ns)]

theorem pair_rs {n c : Nat} {f : Bool} {log : List Ev} : ∀ {ns : List Nat}, pairOf n c f (ns.map Ev.resetStream ++ log) = if n ∈ ns ∧ f = false then [] else pairOf n c f log
  | [] => by simp
  | m :: ns => by
    simp only [List.map_cons, List.cons_append, pairOf, pair_rs (ns := ns), List.mem_cons]
    by_cases h : m = n
    · cases f <;> simp [h]
    · have : n ≠ m := fun e => h e.symm
      simp [h, this]

theorem inv_readStreams {st st' : St} {rs : List StreamRep} {sel : Nat → Bool} {reset : Bool} (h : Inv st) (hr : readStreams st sel reset = .ok (st', rs)) : Inv st' := by
  unfold readStreams at hr
  split at hr
  · cases hr
  · cases hr
    cases reset with
    | false => exact h
    | true =>
      have hl : ((st.streams.filter fun s => sel s.name).map fun s => Ev.resetStream s.name) = ((st.streams.filter fun s => sel s.name).map Stream.name).map Ev.resetStream := by
        rw [List.map_map]; rfl
      rw [if_pos rfl, hl]
      have hin : ∀ s ∈ st.streams, (s.name ∈ (st.streams.filter fun s => sel s.name).map Stream.name ↔ sel s.name = true) := by
        intro s hs
        constructor
        · intro hh
          obtain ⟨x, hx, e⟩ := List.mem_map.1 hh
          rw [← e]
          exact (List.mem_filter.1 hx).2
        · intro hh
          exact List.mem_map.2 ⟨s, List.mem_filter.2 ⟨hs, hh⟩, rfl⟩
      refine h.change (fun s => if sel s.name then resetStream s else s) st.clients _ ?_ ?_ ?_ (fun _ => rfl) ?_ ?_ ?_ ?_ ?_ ?_ ?_
      · intro s; split <;> rfl
      · intro s; split
        · simp [resetStream, List.map_map, Function.comp_def]
        · rfl
      · intro s; split
        · simp [resetStream, List.map_map, Function.comp_def]
        · rfl
      · intro s hs
        rw [rx_rs]
        by_cases hh : sel s.name = true
        · rw [if_pos hh, if_pos ((hin s hs).2 hh)]; rfl
        · rw [if_neg hh, if_neg (fun x => hh ((hin s hs).1 x))]; exact (h.strm s hs).rx
      · intro s hs p hp
        rw [src_rs]
        by_cases hh : sel s.name = true
        · rw [if_pos hh] at hp
          rw [if_pos ((hin s hs).2 hh)]
          obtain ⟨q, hq, rfl⟩ := List.mem_map.1 hp
          rfl
        · rw [if_neg hh] at hp
          rw [if_neg (fun x => hh ((hin s hs).1 x))]; exact (h.strm s hs).srcs p hp
      · intro n a ha
        rw [src_rs]
        split
        · rfl
        · exact ha
      · intro s hs e he hb
        rw [pair_rs, pair_rs]
        by_cases hh : sel s.name = true
        · rw [if_pos hh] at he
          obtain ⟨q, hq, rfl⟩ := List.mem_map.1 he
          rw [if_pos ⟨(hin s hs).2 hh, rfl⟩, if_neg (by simp)]
          exact ⟨rfl, ((h.strm s hs).pair q hq hb).2⟩
        · rw [if_neg hh] at he
          rw [if_neg (fun x => hh ((hin s hs).1 x.1)), if_neg (by simp)]
          exact (h.strm s hs).pair e he hb
      · intro c k hk ho
        rw [client_rs, client_rs]
        exact h.cl c k hk ho
      · intro n c f b t lv hh
        rcases List.mem_append.1 hh with hh | hh
        · obtain ⟨_, _, e⟩ := List.mem_map.1 hh; cases e
        · exact hh
      · intro n s b t lv hh
        rcases List.mem_append.1 hh with hh | hh
        · obtain ⟨_, _, e⟩ := List.mem_map.1 hh; cases e
        · exact hh

/-! ### the statistics of clients are read -/

theorem visited_iff {st : St} (h : Inv st) {c : Nat} : visited st c = true ↔ ∃ k, st.clients[c]? = some k ∧ k.isOpen = true := by
  unfold visited
  cases hk : st.clients[c]? with
  | none => simp
  | some k =>
    simp only [Bool.or_eq_true, List.contains_iff_mem, Bool.and_eq_true, Bool.not_eq_true', List.any_eq_true, beq_iff_eq, Option.some.injEq, exists_eq_left']
    constructor
    · rintro (hq | ⟨hr, s, hs, e, he, hc, hb⟩)
      · obtain ⟨k', hk', ho, -⟩ := h.rq c hq
        rw [hk] at hk'
        cases hk'
        exact ho
      · obtain ⟨k', hk', ho⟩ := (h.strm s hs).live e he hb
        rw [hc, hk] at hk'
        cases hk'
        exact ho
    · intro ho
      cases hr : k.m.isRegex with
      | true => exact .inl (h.opnR c k hk ho hr)
      | false =>
        obtain ⟨s, hs, e, he, h1, h2⟩ := h.opnE c k hk ho hr
        exact .inr ⟨rfl, s, hs, e, he, h1, h2⟩

theorem resetIf_get {p : Nat → Bool} : ∀ {cs : List Client} {i j : Nat}, (resetIf p i cs)[j]? = (cs[j]?).map fun k => if p (i + j) then resetC k else k
  | [], i, j => by simp [resetIf]
  | k :: ks, i, 0 => by simp [resetIf]
  | k :: ks, i, j + 1 => by
    simp only [resetIf, List.getElem?_cons_succ]
    rw [resetIf_get]
    simp [Nat.add_assoc, Nat.add_comm 1 j]

theorem resetIf_shape {p : Nat → Bool} {cs : List Client} (c : Nat) : ((resetIf p 0 cs)[c]?).map shape = (cs[c]?).map shape := by
  rw [resetIf_get, Option.map_map]
  congr 1
  funext k
  simp only [Function.comp_apply]
  split <;> rfl

theorem rx_rc {n : Nat} {log : List Ev} : ∀ {cs : List Nat}, rxOf n (cs.map Ev.resetClient ++ log) = rxOf n log
  | [] => rfl
  | m :: cs => by simp only [List.map_cons, List.cons_append, rxOf, rx_rc (cs := cs)]

theorem src_rc {n a : Nat} {log : List Ev} : ∀ {cs : List Nat}, srcOf n a (cs.map Ev.resetClient ++ log) = srcOf n a log
  | [] => rfl
  | m :: cs => by simp only [List.map_cons, List.cons_append, srcOf, src_rc (cs := cs)]

theorem client_rc {c : Nat} {f : Bool} {log : List Ev} : ∀ {cs : List Nat}, clientOf c f (cs.map Ev.resetClient ++ log) = if c ∈ cs then [] else clientOf c f log
  | [] => by simp
  | m :: cs => by
    simp only [List.map_cons, List.cons_append, clientOf, client_rc (cs := cs), List.mem_cons]
    by_cases h : m = c
    · simp [h]
    · have : c ≠ m := fun e => h e.symm
      simp [h, this]

theorem pair_rc {n c : Nat} {f : Bool} {log : List Ev} : ∀ {cs : List Nat}, pairOf n c f (cs.map Ev.resetClient ++ log) = if c ∈ cs then [] else pairOf n c f log
  | [] => by simp
  | m :: cs => by
    simp only [List.map_cons, List.cons_append, pairOf, pair_rc (cs := cs), List.mem_cons]
    by_cases h : m = c
    · simp [h]
    · have : c ≠ m := fun e => h e.symm
      simp [h, this]

/-- the open clients, after their counters are reset -/
theorem resetIf_open {st : St} (h : Inv st) {c : Nat} {k : Client} (hk : (resetIf (visited st) 0 st.clients)[c]? = some k) (ho : k.isOpen = true) :
    visited st c = true ∧ k.tx = zero ∧ k.drops = zero := by
  rw [resetIf_get] at hk
  cases hx : st.clients[c]? with
  | none => rw [hx] at hk; cases hk
  | some k0 =>
    rw [hx] at hk
    simp only [Option.map_some, Nat.zero_add, Option.some.injEq] at hk
    have ho0 : k0.isOpen = true := by
      subst hk
      split at ho
      · exact ho
      · exact ho
    have hv := (visited_iff h).2 ⟨k0, hx, ho0⟩
    rw [if_pos hv] at hk
    subst hk
    exact ⟨hv, rfl, rfl⟩

theorem inv_readClients {st : St} {reset : Bool} (h : Inv st) : Inv (readClients st reset).1 := by
  unfold readClients
  cases reset with
  | false => exact h
  | true =>
    dsimp only
    rw [if_pos rfl]
    have hin : ∀ c, visited st c = true → c ∈ (List.range st.clients.length).filter (visited st) := by
      intro c hv
      obtain ⟨k, hk, -⟩ := (visited_iff h).1 hv
      exact List.mem_filter.2 ⟨List.mem_range.2 (get_lt hk), hv⟩
    refine h.change (fun s => { s with ents := s.ents.map fun e => if visited st e.client then resetE e else e }) _ _ (fun _ => rfl) ?_ (fun _ => rfl) resetIf_shape ?_ ?_ ?_ ?_ ?_ ?_ ?_
    · intro s
      dsimp only
      rw [List.map_map]
      refine List.map_congr_left fun e _ => ?_
      simp only [Function.comp_apply]
      split <;> rfl
    · intro s hs; rw [rx_rc]; exact (h.strm s hs).rx
    · intro s hs p hp; rw [src_rc]; exact (h.strm s hs).srcs p hp
    · intro n a ha; rw [src_rc]; exact ha
    · intro s hs e he hb
      obtain ⟨e0, he0, rfl⟩ := List.mem_map.1 he
      have hb0 : e0.bound = true := by
        split at hb
        · exact hb
        · exact hb
      have hv := (visited_iff h).2 ((h.strm s hs).live e0 he0 hb0)
      have hc : (resetE e0).client = e0.client := rfl
      rw [if_pos hv, pair_rc, pair_rc, hc, if_pos (hin _ hv), if_pos (hin _ hv)]
      exact ⟨rfl, rfl⟩
    · intro c k hk ho
      obtain ⟨hv, a1, a2⟩ := resetIf_open h hk ho
      rw [client_rc, client_rc, if_pos (hin _ hv), if_pos (hin _ hv)]
      exact ⟨a1, a2⟩
    · intro n c f b t lv hh
      rcases List.mem_append.1 hh with hh | hh
      · obtain ⟨_, _, e⟩ := List.mem_map.1 hh; cases e
      · exact hh
    · intro n s b t lv hh
      rcases List.mem_append.1 hh with hh | hh
      · obtain ⟨_, _, e⟩ := List.mem_map.1 hh; cases e
      · exact hh

theorem inv_resetAll {st : St} (h : Inv st) : Inv (resetAll st) := by
  unfold resetAll
  refine h.change (fun s => { s with
        rx := zero
        srcs := s.srcs.map fun p => (p.1, zero)
        ents := s.ents.map fun e => if visited st e.client && (e.bound || st.regexq.contains e.client) then resetE e else e }) _ _ (fun _ => rfl) ?_ ?_ resetIf_shape ?_ ?_ ?_ ?_ ?_ ?_ ?_
  · intro s
    dsimp only
    rw [List.map_map]
    refine List.map_congr_left fun e _ => ?_
    simp only [Function.comp_apply]
    split <;> rfl
  · intro s; simp [List.map_map, Function.comp_def]
  · intro s hs; rfl
  · intro s hs p hp
    obtain ⟨q, hq, rfl⟩ := List.mem_map.1 hp
    rfl
  · intro n a ha; rfl
  · intro s hs e he hb
    obtain ⟨e0, he0, rfl⟩ := List.mem_map.1 he
    have hb0 : e0.bound = true := by
      split at hb
      · exact hb
      · exact hb
    have hv := (visited_iff h).2 ((h.strm s hs).live e0 he0 hb0)
    rw [if_pos (by rw [hv, hb0]; rfl)]
    exact ⟨rfl, rfl⟩
  · intro c k hk ho
    obtain ⟨hv, a1, a2⟩ := resetIf_open h hk ho
    exact ⟨a1, a2⟩
  · intro n c f b t lv hh
    rcases List.mem_cons.1 hh with hh | hh
    · cases hh
    · exact hh
  · intro n s b t lv hh
    rcases List.mem_cons.1 hh with hh | hh
    · cases hh
    · exact hh

theorem inv_level {st : St} (h : Inv st) (l : Int) : Inv { st with level := l } :=
  ⟨h.names, h.strm, h.cl, h.opnR, h.opnE, h.rqn, h.rq, h.lcall, h.lrecv⟩

theorem inv_step {st st' : St} (h : Inv st) {a : Act} (hs : step st a = .ok st') : Inv st' := by
  cases a with
  | subscribe m l => cases hs; exact inv_subscribe h m l
  | close c => cases hs; exact inv_close h c
  | deliver n s b t j f l => exact inv_deliver h hs
  | setLevel l => cases hs; exact inv_level h l
  | readStreams sel r =>
    simp only [step] at hs
    cases hr : readStreams st sel r with
    | error x => rw [hr] at hs; cases hs
    | ok p =>
      rw [hr] at hs
      cases hs
      exact inv_readStreams h (rs := p.2) hr
  | readClients r => cases hs; exact inv_readClients h
  | resetAll => cases hs; exact inv_resetAll h

theorem inv_run : ∀ {as : List Act} {st st' : St}, Inv st → run st as = .ok st' → Inv st'
  | [], st, st', h, hr => by cases hr; exact h
  | a :: as, st, st', h, hr => by
    rw [run] at hr
    split at hr
    · cases hr
    · rename_i hs
      exact inv_run (inv_step h hs) hr

theorem inv_reach {st : St} (h : Reachable st) : Inv st := by
  obtain ⟨as, h⟩ := h
  exact inv_run inv_init h

end Verif.StreamStat
