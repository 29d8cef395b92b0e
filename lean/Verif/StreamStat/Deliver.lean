import Verif.StreamStat.Proofs
import Mathlib.Data.List.Nodup

/-!
# A delivery keeps the invariant
-/

namespace Verif.StreamStat

def PairsOK (name : Nat) (log : List Ev) (es : List Ent) : Prop :=
  ∀ e ∈ es, e.bound = true → e.tx = acc (pairOf name e.client false log) ∧ e.drops = acc (pairOf name e.client true log)

/-- what of a client a delivery does not change -/
def shape (k : Client) : Match × Bool × Bool := (k.m, k.isLocal, k.isOpen)

structure LoopOK (name : Nat) (es : List Ent) (cs : List Client) (log : List Ev) (es' : List Ent) (cs' : List Client) (log' : List Ev) : Prop where
  ents : es'.map (fun e => (e.client, e.bound)) = es.map (fun e => (e.client, e.bound))
  len : cs'.length = cs.length
  same : ∀ c : Nat, (cs'[c]?).map shape = (cs[c]?).map shape
  cl : ClientsOK log cs → ClientsOK log' cs'
  pairs : (es.map Ent.client).Nodup → PairsOK name log es → PairsOK name log' es'
  other : ∀ c f, c ∉ es.map Ent.client → pairOf name c f log' = pairOf name c f log
  names : ∀ n c f, n ≠ name → pairOf n c f log' = pairOf n c f log
  rx : ∀ n, rxOf n log' = rxOf n log
  src : ∀ n a, srcOf n a log' = srcOf n a log
  calls : ∀ n c f b t lv, Ev.call n c f b t lv ∈ log' → Ev.call n c f b t lv ∈ log ∨ (n = name ∧ c ∈ es.map Ent.client)
  recvs : ∀ n s b t lv, Ev.recv n s b t lv ∈ log' → Ev.recv n s b t lv ∈ log

theorem LoopOK.refl {name : Nat} {es : List Ent} {cs : List Client} {log : List Ev} : LoopOK name es cs log es cs log :=
  ⟨rfl, rfl, fun _ => rfl, id, fun _ h => h, fun _ _ _ => rfl, fun _ _ _ _ => rfl, fun _ => rfl, fun _ _ => rfl, fun _ _ _ _ _ _ h => .inl h, fun _ _ _ _ _ h => h⟩

/-- one client more in front: it is not called -/
theorem LoopOK.skip {name : Nat} {e : Ent} {es es' : List Ent} {cs cs' : List Client} {log log' : List Ev} (h : LoopOK name es cs log es' cs' log') :
    LoopOK name (e :: es) cs log (e :: es') cs' log' := by
  constructor
  · simp [h.ents]
  · exact h.len
  · exact h.same
  · exact h.cl
  · intro hn hp x hx hb
    rw [List.map_cons, List.nodup_cons] at hn
    rcases List.mem_cons.1 hx with rfl | hx
    · have := hp x (by simp) hb
      rw [h.other _ _ hn.1, h.other _ _ hn.1]
      exact this
    · exact h.pairs hn.2 (fun y hy => hp y (by simp [hy])) x hx hb
  · intro c f hc
    exact h.other c f fun hh => hc (by simp only [List.map_cons, List.mem_cons]; exact .inr hh)
  · exact h.names
  · exact h.rx
  · exact h.src
  · intro n c f b t lv hh
    rcases h.calls n c f b t lv hh with hh | ⟨rfl, hh⟩
    · exact .inl hh
    · exact .inr ⟨rfl, by simp only [List.map_cons, List.mem_cons]; exact .inr hh⟩
  · exact h.recvs

/-- the change of a client by a call -/
def bumped (f : Bool) (t b : Nat) (k : Client) : Client := if f then { k with drops := update k.drops t b } else { k with tx := update k.tx t b }
def bumpedE (f : Bool) (t b : Nat) (e : Ent) : Ent := if f then { e with drops := update e.drops t b } else { e with tx := update e.tx t b }

theorem modify_get {α : Type} {l : List α} {i j : Nat} {f : α → α} : (l.modify i f)[j]? = if i = j then (l[j]?).map f else l[j]? := by
  rw [List.getElem?_modify]
  split
  · cases l[j]? <;> simp [*]
  · cases l[j]? <;> simp [*]

theorem clients_call {log : List Ev} {cs : List Client} {name c b t : Nat} {f : Bool} {lv : Int} (hl : 0 < lv) (h : ClientsOK log cs) :
    ClientsOK (.call name c f b t lv :: log) (cs.modify c (bumped f t b)) := by
  intro d k hk ho
  rw [modify_get] at hk
  have h1 : (1 : Int) ≤ lv := hl
  by_cases hd : c = d
  · subst hd
    rw [if_pos rfl] at hk
    cases hx : cs[c]? with
    | none => rw [hx] at hk; cases hk
    | some y =>
      rw [hx] at hk
      have hk : bumped f t b y = k := Option.some.inj hk
      subst hk
      have ho : y.isOpen = true := by cases f <;> exact ho
      obtain ⟨a1, a2⟩ := h c y hx ho
      cases f <;> simp [clientOf, h1, bumped, acc, a1, a2]
  · rw [if_neg hd] at hk
    obtain ⟨a1, a2⟩ := h d k hk ho
    simp [clientOf, hd, a1, a2]

theorem shape_bumped {f : Bool} {t b : Nat} {k : Client} : shape (bumped f t b k) = shape k := by cases f <;> rfl

/-- one client more in front: it is called, and counted -/
theorem LoopOK.call {name b t : Nat} {f : Bool} {lv : Int} {e : Ent} {es es' : List Ent} {cs cs' : List Client} {log log' : List Ev} (hl : 0 < lv)
    (h : LoopOK name es (cs.modify e.client (bumped f t b)) (.call name e.client f b t lv :: log) es' cs' log') :
    LoopOK name (e :: es) cs log (bumpedE f t b e :: es') cs' log' := by
  have h1 : (1 : Int) ≤ lv := hl
  have hcl : (bumpedE f t b e).client = e.client := by cases f <;> rfl
  have hbo : (bumpedE f t b e).bound = e.bound := by cases f <;> rfl
  constructor
  · simp [h.ents, hcl, hbo]
  · rw [h.len]; simp
  · intro c
    rw [h.same, modify_get]
    split
    · rw [Option.map_map]
      congr 1
      funext k
      exact shape_bumped
    · rfl
  · intro hc
    exact h.cl (clients_call hl hc)
  · intro hn hp x hx hb
    rw [List.map_cons, List.nodup_cons] at hn
    rcases List.mem_cons.1 hx with rfl | hx
    · rw [hcl, h.other _ _ hn.1, h.other _ _ hn.1]
      obtain ⟨a1, a2⟩ := hp e (by simp) (hbo ▸ hb)
      cases f <;> simp [pairOf, h1, bumpedE, acc, a1, a2]
    · refine h.pairs hn.2 ?_ x hx hb
      intro y hy hyb
      have hne : e.client ≠ y.client := fun hh => hn.1 (hh ▸ List.mem_map.2 ⟨y, hy, rfl⟩)
      obtain ⟨a1, a2⟩ := hp y (by simp [hy]) hyb
      simp [pairOf, hne, a1, a2]
  · intro c f' hc
    simp only [List.map_cons, List.mem_cons, not_or] at hc
    rw [h.other c f' hc.2, pairOf, if_neg]
    rintro ⟨-, hh, -⟩
    exact hc.1 hh.symm
  · intro n c f' hn
    rw [h.names n c f' hn, pairOf, if_neg]
    rintro ⟨hh, -⟩
    exact hn hh.symm
  · intro n; rw [h.rx]; rfl
  · intro n a; rw [h.src]; rfl
  · intro n c f' b' t' lv' hh
    rcases h.calls n c f' b' t' lv' hh with hh | ⟨rfl, hh⟩
    · rcases List.mem_cons.1 hh with hh | hh
      · cases hh; exact .inr ⟨rfl, by simp⟩
      · exact .inl hh
    · exact .inr ⟨rfl, by simp only [List.map_cons, List.mem_cons]; exact .inr hh⟩
  · intro n s b' t' lv' hh
    rcases List.mem_cons.1 (h.recvs n s b' t' lv' hh) with hh | hh
    · cases hh
    · exact hh

/-- one client more in front: it is called, and not counted -/
theorem LoopOK.uncounted {name b t : Nat} {f : Bool} {lv : Int} {e : Ent} {es es' : List Ent} {cs cs' : List Client} {log log' : List Ev} (hl : ¬ 0 < lv)
    (h : LoopOK name es cs (.call name e.client f b t lv :: log) es' cs' log') :
    LoopOK name (e :: es) cs log (e :: es') cs' log' := by
  have h1 : ¬ (1 : Int) ≤ lv := hl
  have hp0 : ∀ n c f', pairOf n c f' (.call name e.client f b t lv :: log) = pairOf n c f' log := by
    intro n c f'
    rw [pairOf, if_neg]
    rintro ⟨-, -, -, hh⟩
    exact h1 hh
  have hc0 : ∀ c f', clientOf c f' (.call name e.client f b t lv :: log) = clientOf c f' log := by
    intro c f'
    rw [clientOf, if_neg]
    rintro ⟨-, -, hh⟩
    exact h1 hh
  constructor
  · simp [h.ents]
  · exact h.len
  · exact h.same
  · intro hc
    refine h.cl ?_
    intro c k hk ho
    rw [hc0, hc0]
    exact hc c k hk ho
  · intro hn hp x hx hb
    rw [List.map_cons, List.nodup_cons] at hn
    rcases List.mem_cons.1 hx with rfl | hx
    · rw [h.other _ _ hn.1, h.other _ _ hn.1, hp0, hp0]
      exact hp x (by simp) hb
    · refine h.pairs hn.2 ?_ x hx hb
      intro y hy hyb
      rw [hp0, hp0]
      exact hp y (by simp [hy]) hyb
  · intro c f' hc
    simp only [List.map_cons, List.mem_cons, not_or] at hc
    rw [h.other c f' hc.2, hp0]
  · intro n c f' hn; rw [h.names n c f' hn, hp0]
  · intro n; rw [h.rx]; rfl
  · intro n a; rw [h.src]; rfl
  · intro n c f' b' t' lv' hh
    rcases h.calls n c f' b' t' lv' hh with hh | ⟨rfl, hh⟩
    · rcases List.mem_cons.1 hh with hh | hh
      · cases hh; exact .inr ⟨rfl, by simp⟩
      · exact .inl hh
    · exact .inr ⟨rfl, by simp only [List.map_cons, List.mem_cons]; exact .inr hh⟩
  · intro n s b' t' lv' hh
    rcases List.mem_cons.1 (h.recvs n s b' t' lv' hh) with hh | hh
    · cases hh
    · exact hh

theorem loop_ok {lv : Int} {now : Option Nat} {name b : Nat} {bad : Bool} {fails : Nat → Bool} : ∀ {es es' : List Ent} {cs cs' : List Client} {log log' : List Ev} {gc : Bool},
    loop lv now name b bad fails es cs log = .ok (es', cs', log', gc) → LoopOK name es cs log es' cs' log'
  | [], es', cs, cs', log, log', gc, h => by
    rw [loop] at h
    cases h
    exact .refl
  | e :: es, es', cs, cs', log, log', gc, h => by
    rw [loop.eq_def] at h
    dsimp only at h
    by_cases hb : (!e.bound) = true
    · rw [if_pos hb] at h
      split at h
      · cases h
      · rename_i hr
        cases h
        exact (loop_ok hr).skip
    · rw [if_neg hb] at h
      by_cases hj : (bad && isLocal cs e.client) = true
      · rw [if_pos hj] at h
        cases h
        exact .refl
      · rw [if_neg hj] at h
        by_cases hl : 0 < lv
        · rw [if_pos hl] at h
          split at h
          · cases h
          · split at h
            · cases h
            · rename_i hr
              cases h
              exact LoopOK.call hl (loop_ok hr)
        · rw [if_neg hl] at h
          split at h
          · cases h
          · rename_i hr
            cases h
            exact LoopOK.uncounted hl (loop_ok hr)

theorem bump_spec {name src now b : Nat} {lv : Int} {log : List Ev} {srcs : List (Nat × Ctr)} (hl : 1 < lv) (hk : (srcs.map Prod.fst).Nodup)
    (hs : ∀ p ∈ srcs, p.2 = acc (srcOf name p.1 log)) (hm : ∀ a, a ∉ srcs.map Prod.fst → srcOf name a log = []) :
    ((bump srcs src now b).map Prod.fst).Nodup ∧ (∀ p ∈ bump srcs src now b, p.2 = acc (srcOf name p.1 (.recv name src b now lv :: log))) ∧
      ∀ a, a ∉ (bump srcs src now b).map Prod.fst → srcOf name a (.recv name src b now lv :: log) = [] := by
  have h2 : (2 : Int) ≤ lv := hl
  unfold bump
  by_cases ha : srcs.any (fun p => p.1 == src) = true
  · rw [if_pos ha]
    have hmap : (srcs.map fun p => if p.1 = src then (p.1, update p.2 now b) else p).map Prod.fst = srcs.map Prod.fst := by
      rw [List.map_map]
      refine List.map_congr_left fun p _ => ?_
      simp only [Function.comp_apply]
      split <;> rfl
    rw [hmap]
    refine ⟨hk, ?_, ?_⟩
    · intro p hp
      obtain ⟨q, hq, rfl⟩ := List.mem_map.1 hp
      by_cases hqs : q.1 = src
      · rw [if_pos hqs]
        simp only [srcOf]
        rw [if_pos ⟨trivial, hqs.symm, h2⟩, acc, ← hs q hq]
      · rw [if_neg hqs, srcOf, if_neg]
        · exact hs q hq
        · rintro ⟨-, hh, -⟩; exact hqs hh.symm
    · intro a haa
      rw [srcOf, if_neg]
      · exact hm a haa
      · rintro ⟨-, rfl, -⟩
        obtain ⟨p, hp, hps⟩ := List.any_eq_true.1 ha
        exact haa (List.mem_map.2 ⟨p, hp, by simpa using hps⟩)
  · rw [if_neg ha]
    have hno : src ∉ srcs.map Prod.fst := by
      intro hh
      obtain ⟨p, hp, hps⟩ := List.mem_map.1 hh
      exact ha (List.any_eq_true.2 ⟨p, hp, by simpa using hps⟩)
    refine ⟨?_, ?_, ?_⟩
    · rw [List.map_append, List.nodup_append]
      refine ⟨hk, by simp, ?_⟩
      intro x hx y hy e
      simp at hy
      exact hno (hy ▸ e ▸ hx)
    · intro p hp
      rcases List.mem_append.1 hp with hp | hp
      · rw [srcOf, if_neg]
        · exact hs p hp
        · rintro ⟨-, hh, -⟩; exact hno (hh ▸ List.mem_map.2 ⟨p, hp, rfl⟩)
      · rw [List.mem_singleton.1 hp]
        simp only [srcOf]
        rw [if_pos ⟨trivial, trivial, h2⟩, hm src hno]
        rfl
    · intro a haa
      simp only [List.map_append, List.map_cons, List.map_nil, List.mem_append, List.mem_singleton, not_or] at haa
      rw [srcOf, if_neg]
      · exact hm a haa.1
      · rintro ⟨-, hh, -⟩; exact haa.2 hh.symm

/-- the counters of the stream itself -/
theorem received_spec {src now b : Nat} {lv : Int} {log : List Ev} {cs : List Client} {s : Stream} (h : StreamOK log cs s) :
    let r := received lv src now b s
    let log' := Ev.recv s.name src b now lv :: log
    r.name = s.name ∧ r.ents = s.ents ∧ r.rx = acc (rxOf s.name log') ∧ (r.srcs.map Prod.fst).Nodup ∧ (∀ p ∈ r.srcs, p.2 = acc (srcOf s.name p.1 log')) ∧
      ∀ a, a ∉ r.srcs.map Prod.fst → srcOf s.name a log' = [] := by
  dsimp only
  unfold received
  have no2 : lv ≤ 1 → ∀ a, srcOf s.name a (Ev.recv s.name src b now lv :: log) = srcOf s.name a log := by
    intro hl a
    rw [srcOf, if_neg]
    rintro ⟨-, -, hh⟩
    omega
  by_cases hl : lv ≤ 0
  · rw [if_pos hl]
    refine ⟨rfl, rfl, ?_, h.keys, ?_, ?_⟩
    · rw [rxOf, if_neg]
      · exact h.rx
      · rintro ⟨-, hh⟩; omega
    · intro p hp; rw [no2 (by omega)]; exact h.srcs p hp
    · intro a ha; rw [no2 (by omega)]; exact h.miss a ha
  · rw [if_neg hl]
    refine ⟨rfl, rfl, ?_, ?_⟩
    · dsimp only
      rw [rxOf, if_pos ⟨rfl, by omega⟩, acc, ← h.rx]
    · dsimp only
      by_cases h2 : 1 < lv
      · rw [if_pos h2]
        exact bump_spec h2 h.keys h.srcs h.miss
      · rw [if_neg h2]
        refine ⟨h.keys, ?_, ?_⟩
        · intro p hp; rw [no2 (by omega)]; exact h.srcs p hp
        · intro a ha; rw [no2 (by omega)]; exact h.miss a ha

theorem inv_deliver {st st' : St} (h : Inv st) {name src b now : Nat} {bad : Bool} {fails : Nat → Bool} {relevel : Option Int}
    (hd : deliver st name src b now bad fails relevel = .ok st') : Inv st' := by
  obtain ⟨hi, ⟨s0, hs0, hn0⟩, -, -, -, -⟩ := inv_get (n := name) h
  rw [deliver] at hd
  dsimp only at hd
  generalize streamGet st name = g at hi hs0 hd
  split at hd
  · cases hd; exact hi
  · rename_i s hs
    have hsm : s ∈ g.streams := List.mem_of_find?_eq_some hs
    have hsn : s.name = name := by simpa using List.find?_some hs
    subst hsn
    split at hd
    · cases hd
    · rename_i es cs log gc hl
      cases hd
      have ok := loop_ok hl
      have hS := hi.strm s hsm
      obtain ⟨r1, r2, r3, r4, r5, r6⟩ := received_spec (src := src) (now := now) (b := b) (lv := g.level) hS
      generalize received g.level src now b s = r at r1 r2 r3 r4 r5 r6 ⊢
      have hpair0 : ∀ n c f l, pairOf n c f (Ev.recv s.name src b now g.level :: l) = pairOf n c f l := fun _ _ _ _ => rfl
      have hmap : es.map Ent.client = s.ents.map Ent.client := by
        have := congrArg (List.map Prod.fst) ok.ents
        simpa [List.map_map, Function.comp_def] using this
      have hebs : ∀ e ∈ es, ∃ e0 ∈ s.ents, e0.client = e.client ∧ e0.bound = e.bound := by
        intro e he
        have : (e.client, e.bound) ∈ es.map (fun e => (e.client, e.bound)) := List.mem_map.2 ⟨e, he, rfl⟩
        rw [ok.ents] at this
        obtain ⟨e0, he0, hh⟩ := List.mem_map.1 this
        injection hh with a1 a2
        exact ⟨e0, he0, a1, a2⟩
      have hopen : ∀ (c : Nat) (k : Client), g.clients[c]? = some k → k.isOpen = true → ∃ k', cs[c]? = some k' ∧ k'.isOpen = true := by
        intro c k hk ho
        have := ok.same c
        rw [hk] at this
        cases hx : cs[c]? with
        | none => rw [hx] at this; cases this
        | some k' =>
          rw [hx] at this
          have : shape k' = shape k := Option.some.inj this
          simp only [shape, Prod.mk.injEq] at this
          exact ⟨k', rfl, by rw [this.2.2, ho]⟩
      have hopen' : ∀ (c : Nat) (k : Client), cs[c]? = some k → ∃ k', g.clients[c]? = some k' ∧ k'.isOpen = k.isOpen ∧ k'.m = k.m := by
        intro c k hk
        have := ok.same c
        rw [hk] at this
        cases hx : g.clients[c]? with
        | none => rw [hx] at this; cases this
        | some k' =>
          rw [hx] at this
          have : shape k = shape k' := Option.some.inj this
          simp only [shape, Prod.mk.injEq] at this
          exact ⟨k', rfl, this.2.2.symm, this.1.symm⟩
      have hnm : ∀ x : Stream, (if x.name = s.name then { r with ents := if gc then es.filter (·.bound) else es } else x).name = x.name := by
        intro x
        split
        · rename_i hx; rw [hx]; exact r1
        · rfl
      have hkeep : ∀ e ∈ es, e.bound = true → e ∈ (if gc then es.filter (·.bound) else es) := by
        intro e he hb
        split
        · exact List.mem_filter.2 ⟨he, hb⟩
        · exact he
      have hsub : ∀ e ∈ (if gc then es.filter (·.bound) else es), e ∈ es := by
        intro e he
        split at he
        · exact (List.mem_filter.1 he).1
        · exact he
      have hP : PairsOK s.name log es := by
        refine ok.pairs hS.once ?_
        intro e he hb
        rw [hpair0, hpair0]
        exact hS.pair e he hb
      constructor
      · dsimp only
        rw [List.map_map]
        have : (Stream.name ∘ fun x => if x.name = s.name then { r with ents := if gc then es.filter (·.bound) else es } else x) = Stream.name := funext hnm
        rw [this]
        exact hi.names
      · intro x1 hx1
        obtain ⟨x, hx, rfl⟩ := List.mem_map.1 hx1
        dsimp only
        by_cases hxs : x.name = s.name
        · rw [if_pos hxs]
          constructor
          · dsimp only; rw [r1, ok.rx]; exact r3
          · exact r4
          · dsimp only; intro p hp; rw [r1, ok.src]; exact r5 p hp
          · dsimp only; intro a ha; rw [r1, ok.src]; exact r6 a ha
          · dsimp only
            split
            · have hn : (es.map Ent.client).Nodup := by rw [hmap]; exact hS.once
              exact hn.sublist (List.Sublist.map _ List.filter_sublist)
            · rw [hmap]; exact hS.once
          · intro e he
            obtain ⟨e0, he0, a1, -⟩ := hebs e (hsub e he)
            rw [ok.len, ← a1]
            exact hS.small e0 he0
          · intro e he hb
            obtain ⟨e0, he0, a1, a2⟩ := hebs e (hsub e he)
            obtain ⟨k, hk, ho⟩ := hS.live e0 he0 (a2.trans hb)
            rw [← a1]
            exact hopen _ k hk ho
          · intro e he k hk ho
            obtain ⟨e0, he0, a1, a2⟩ := hebs e (hsub e he)
            obtain ⟨k', hk', b1, -⟩ := hopen' _ k hk
            rw [← a2]
            exact hS.bnd e0 he0 k' (by rw [a1]; exact hk') (b1.trans ho)
          · intro e he hb
            dsimp only
            rw [r1]
            exact hP e (hsub e he) hb
        · rw [if_neg hxs]
          have hX := hi.strm x hx
          have e1 : ∀ a, srcOf x.name a log = srcOf x.name a g.log := by
            intro a
            rw [ok.src, srcOf, if_neg]
            rintro ⟨hh, -⟩
            exact hxs hh.symm
          constructor
          · rw [ok.rx, rxOf, if_neg]
            · exact hX.rx
            · rintro ⟨hh, -⟩; exact hxs hh.symm
          · exact hX.keys
          · intro p hp; rw [e1]; exact hX.srcs p hp
          · intro a ha; rw [e1]; exact hX.miss a ha
          · exact hX.once
          · intro e he; rw [ok.len]; exact hX.small e he
          · intro e he hb
            obtain ⟨k, hk, ho⟩ := hX.live e he hb
            exact hopen _ k hk ho
          · intro e he k hk ho
            obtain ⟨k', hk', b1, -⟩ := hopen' _ k hk
            exact hX.bnd e he k' hk' (b1.trans ho)
          · intro e he hb
            rw [ok.names _ _ _ hxs, ok.names _ _ _ hxs, hpair0, hpair0]
            exact hX.pair e he hb
      · exact ok.cl hi.cl
      · intro c k hk ho hr
        obtain ⟨k', hk', a1, a2⟩ := hopen' c k hk
        exact hi.opnR c k' hk' (a1.trans ho) (by rw [a2]; exact hr)
      · intro c k hk ho hr
        obtain ⟨k', hk', a1, a2⟩ := hopen' c k hk
        obtain ⟨x, hx, e, he, b1, b2⟩ := hi.opnE c k' hk' (a1.trans ho) (by rw [a2]; exact hr)
        refine ⟨_, List.mem_map.2 ⟨x, hx, rfl⟩, ?_⟩
        by_cases hxs : x.name = s.name
        · have hxe : x = s := by
            have hn := hi.names
            have := List.inj_on_of_nodup_map hn hx hsm hxs
            exact this
          subst hxe
          have : (e.client, e.bound) ∈ es.map (fun e => (e.client, e.bound)) := by rw [ok.ents]; exact List.mem_map.2 ⟨e, he, rfl⟩
          obtain ⟨e', he', hh⟩ := List.mem_map.1 this
          injection hh with c1 c2
          refine ⟨e', ?_, c1.trans b1, c2.trans b2⟩
          rw [if_pos rfl]
          exact hkeep e' he' (c2.trans b2)
        · refine ⟨e, ?_, b1, b2⟩
          rw [if_neg hxs]
          exact he
      · exact hi.rqn
      · intro c hc
        obtain ⟨k, hk, ho, hr⟩ := hi.rq c hc
        obtain ⟨k1, hk1, -⟩ := hopen c k hk ho
        obtain ⟨k2, hk2, a1, a2⟩ := hopen' c k1 hk1
        obtain rfl : k = k2 := Option.some.inj (hk.symm.trans hk2)
        exact ⟨k1, hk1, a1 ▸ ho, by rw [← a2]; exact hr⟩
      · intro n c f b' t lv hh
        have hex : ∀ n, (∃ x ∈ g.streams, x.name = n) → ∃ x ∈ g.streams.map (fun x => if x.name = s.name then { r with ents := if gc then es.filter (·.bound) else es } else x), x.name = n := by
          rintro n ⟨x, hx, rfl⟩
          exact ⟨_, List.mem_map.2 ⟨x, hx, rfl⟩, hnm x⟩
        rcases ok.calls n c f b' t lv hh with h1 | ⟨h1, h2⟩
        · rcases List.mem_cons.1 h1 with h1 | h1
          · cases h1
          · obtain ⟨a1, a2⟩ := hi.lcall n c f b' t lv h1
            exact ⟨by rw [ok.len]; exact a1, hex n a2⟩
        · subst h1
          obtain ⟨e, he, rfl⟩ := List.mem_map.1 h2
          exact ⟨by rw [ok.len]; exact hS.small e he, hex _ ⟨s, hsm, rfl⟩⟩
      · intro n x b' t lv hh
        have hex : ∀ n, (∃ x ∈ g.streams, x.name = n) → ∃ x ∈ g.streams.map (fun x => if x.name = s.name then { r with ents := if gc then es.filter (·.bound) else es } else x), x.name = n := by
          rintro n ⟨x, hx, rfl⟩
          exact ⟨_, List.mem_map.2 ⟨x, hx, rfl⟩, hnm x⟩
        rcases List.mem_cons.1 (ok.recvs n x b' t lv hh) with hh | hh
        · cases hh; exact hex _ ⟨s, hsm, rfl⟩
        · exact hex n (hi.lrecv n x b' t lv hh)

end Verif.StreamStat
