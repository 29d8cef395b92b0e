import Verif.StreamStat.Reset

/-!
# Which clients a stream has
-/

namespace Verif.StreamStat

def Has (s : Stream) (c : Nat) : Prop := ∃ e ∈ s.ents, e.client = c

/-- a stream has the open clients whose name or expression is for it -/
def Cov (st : St) : Prop := ∀ s ∈ st.streams, ∀ (c : Nat) (k : Client), st.clients[c]? = some k → k.isOpen = true → (Has s c ↔ covers st.clients c s.name = true)

theorem covers_shape {cs cs' : List Client} {c : Nat} (h : (cs'[c]?).map shape = (cs[c]?).map shape) (n : Nat) : covers cs' c n = covers cs c n := by
  unfold covers
  cases h1 : cs'[c]? with
  | none =>
    cases h2 : cs[c]? with
    | none => rfl
    | some k => rw [h1, h2] at h; cases h
  | some k' =>
    cases h2 : cs[c]? with
    | none => rw [h1, h2] at h; cases h
    | some k =>
      rw [h1, h2] at h
      have h : shape k' = shape k := Option.some.inj h
      simp only [shape, Prod.mk.injEq] at h
      dsimp only
      rw [h.1]

theorem Cov.of {st st' : St} (hc : Cov st) (hsh : ∀ c : Nat, (st'.clients[c]?).map shape = (st.clients[c]?).map shape)
    (hs : ∀ s' ∈ st'.streams, ∃ s ∈ st.streams, s.name = s'.name ∧ ∀ (c : Nat) (k : Client), st.clients[c]? = some k → k.isOpen = true → (Has s' c ↔ Has s c)) : Cov st' := by
  intro s' hs' c k' hk' ho'
  obtain ⟨s, hm, hn, hh⟩ := hs s' hs'
  have h := hsh c
  rw [hk'] at h
  cases hk : st.clients[c]? with
  | none => rw [hk] at h; cases h
  | some k =>
    rw [hk] at h
    have h : shape k' = shape k := Option.some.inj h
    simp only [shape, Prod.mk.injEq] at h
    have ho : k.isOpen = true := by rw [← h.2.2]; exact ho'
    rw [hh c k hk ho, hc s hm c k hk ho, covers_shape (hsh c), hn]

theorem cov_get {st : St} {n : Nat} (h : Inv st) (hc : Cov st) : Cov (streamGet st n) := by
  unfold streamGet
  by_cases ha : st.streams.any (fun s => s.name == n) = true
  · rw [if_pos ha]; exact hc
  · rw [if_neg ha]
    intro s hs c k hk ho
    rcases List.mem_append.1 hs with hs | hs
    · exact hc s hs c k hk ho
    · rw [List.mem_singleton.1 hs]
      dsimp only
      constructor
      · rintro ⟨e, he, rfl⟩
        obtain ⟨d, hd, rfl⟩ := List.mem_map.1 he
        exact (List.mem_filter.1 hd).2
      · intro hcov
        cases hr : k.m.isRegex with
        | true =>
          refine ⟨entry c, List.mem_map.2 ⟨c, List.mem_filter.2 ⟨h.opnR c k hk ho hr, hcov⟩, rfl⟩, rfl⟩
        | false =>
          exfalso
          obtain ⟨x, hx, e, he, h1, h2⟩ := h.opnE c k hk ho hr
          have hx2 := (hc x hx c k hk ho).1 ⟨e, he, h1⟩
          dsimp only at hk hcov
          unfold covers at hcov hx2
          rw [hk] at hcov hx2
          cases hm : k.m with
          | regex p => rw [hm] at hr; cases hr
          | exact q =>
            simp only [hm, beq_iff_eq] at hcov hx2
            exact ha (List.any_eq_true.2 ⟨x, hx, by simp [← hx2, hcov]⟩)

theorem cov_bind {st : St} (h : Inv st) (hc : Cov st) (q : Nat → Bool) (m : Match) (l : Bool) (rq : List Nat)
    (hq : ∀ n, q n = match m with | .exact x => x == n | .regex p => p n) :
    Cov { st with
      clients := st.clients ++ [⟨m, l, true, zero, zero⟩]
      regexq := rq
      streams := st.streams.map fun s => if q s.name = true then bind st.clients.length s else s } := by
  intro s1 hs1 c k hk ho
  obtain ⟨s, hs, rfl⟩ := List.mem_map.1 hs1
  dsimp only at hk ⊢
  have hnm : (if q s.name = true then bind st.clients.length s else s).name = s.name := by split <;> rfl
  rw [hnm]
  by_cases hlt : c < st.clients.length
  · rw [List.getElem?_append_left hlt] at hk
    have e1 : covers (st.clients ++ [⟨m, l, true, zero, zero⟩]) c s.name = covers st.clients c s.name := by
      unfold covers; rw [List.getElem?_append_left hlt]
    rw [e1, ← hc s hs c k hk ho]
    split
    · constructor
      · rintro ⟨e, he, rfl⟩
        rcases List.mem_append.1 he with he | he
        · exact ⟨e, he, rfl⟩
        · rw [List.mem_singleton.1 he] at hlt; exact absurd hlt (Nat.lt_irrefl _)
      · rintro ⟨e, he, rfl⟩
        exact ⟨e, List.mem_append_left _ he, rfl⟩
    · rfl
  · have hl2 := get_lt hk
    simp at hl2
    obtain rfl : c = st.clients.length := by omega
    have e1 : covers (st.clients ++ [⟨m, l, true, zero, zero⟩]) st.clients.length s.name = q s.name := by
      unfold covers; rw [hq]; cases m <;> simp
    rw [e1]
    constructor
    · rintro ⟨e, he, hec⟩
      split at he
      · assumption
      · have := (h.strm s hs).small e he
        omega
    · intro hqs
      rw [if_pos hqs]
      exact ⟨entry st.clients.length, List.mem_append_right _ (List.mem_singleton.2 rfl), rfl⟩

theorem cov_subscribe {st : St} (h : Inv st) (hc : Cov st) (m : Match) (l : Bool) : Cov (subscribe st m l) := by
  cases m with
  | regex p => exact cov_bind h hc p (.regex p) l _ fun _ => rfl
  | exact n =>
    obtain ⟨hi, -, hcl, -, -, -⟩ := inv_get (n := n) h
    have := cov_bind hi (cov_get (n := n) h hc) (fun x => decide (x = n)) (.exact n) l (streamGet st n).regexq fun x => by
      by_cases hx : x = n
      · simp [hx]
      · have : n ≠ x := fun e => hx e.symm
        simp [hx, this]
    simpa [subscribe, hcl] using this

theorem cov_close {st : St} (hc : Cov st) (c : Nat) : Cov (close st c) := by
  intro s1 hs1 d k hk ho
  obtain ⟨s, hs, rfl⟩ := List.mem_map.1 hs1
  have hk : (st.clients.modify c fun k => { k with isOpen := false })[d]? = some k := hk
  have hd : c ≠ d := by
    intro e
    subst e
    rw [modify_get, if_pos rfl] at hk
    cases hx : st.clients[c]? with
    | none => rw [hx] at hk; cases hk
    | some y => rw [hx] at hk; cases hk; cases ho
  have hg : (st.clients.modify c fun k => { k with isOpen := false })[d]? = st.clients[d]? := by rw [modify_get, if_neg hd]
  rw [hg] at hk
  have e1 : covers (close st c).clients d s.name = covers st.clients d s.name := by
    unfold covers close; dsimp only; rw [hg]
  show _ ↔ covers (close st c).clients d s.name = true
  rw [e1, ← hc s hs d k hk ho]
  constructor
  · rintro ⟨e, he, rfl⟩
    obtain ⟨e0, he0, rfl⟩ := List.mem_map.1 he
    exact ⟨e0, he0, by split <;> rfl⟩
  · rintro ⟨e, he, rfl⟩
    exact ⟨_, List.mem_map.2 ⟨e, he, rfl⟩, by split <;> rfl⟩

theorem has_of_map {s s' : Stream} (h : s'.ents.map (fun e => (e.client, e.bound)) = s.ents.map (fun e => (e.client, e.bound))) (c : Nat) : Has s' c ↔ Has s c := by
  have h := congrArg (List.map Prod.fst) h
  simp only [List.map_map] at h
  have h : s'.ents.map Ent.client = s.ents.map Ent.client := h
  have := List.mem_map (f := Ent.client) (l := s'.ents) (b := c)
  unfold Has
  rw [← List.mem_map, ← List.mem_map, h]

theorem cov_deliver {st st' : St} (h : Inv st) (hc : Cov st) {name src b now : Nat} {bad : Bool} {fails : Nat → Bool} {relevel : Option Int}
    (hd : deliver st name src b now bad fails relevel = .ok st') : Cov st' := by
  have hi := (inv_get (n := name) h).1
  have hc := cov_get (n := name) h hc
  rw [deliver] at hd
  dsimp only at hd
  generalize streamGet st name = g at hi hc hd
  split at hd
  · cases hd; exact hc
  · rename_i s hs
    have hsm : s ∈ g.streams := List.mem_of_find?_eq_some hs
    have hsn : s.name = name := by simpa using List.find?_some hs
    subst hsn
    split at hd
    · cases hd
    · rename_i es cs log gc hl
      cases hd
      have ok := loop_ok hl
      refine hc.of ok.same ?_
      intro s1 hs1
      obtain ⟨x, hx, rfl⟩ := List.mem_map.1 hs1
      by_cases hxs : x.name = s.name
      · rw [if_pos hxs]
        refine ⟨s, hsm, ?_, ?_⟩
        · show s.name = (received g.level src now b s).name
          unfold received; split <;> rfl
        · intro c k hk ho
          rw [← has_of_map (s' := { s with ents := es }) ok.ents]
          unfold Has
          dsimp only
          split
          · constructor
            · rintro ⟨e, he, e1⟩; exact ⟨e, (List.mem_filter.1 he).1, e1⟩
            · rintro ⟨e, he, rfl⟩
              refine ⟨e, List.mem_filter.2 ⟨he, ?_⟩, rfl⟩
              have : (e.client, e.bound) ∈ es.map (fun e => (e.client, e.bound)) := List.mem_map.2 ⟨e, he, rfl⟩
              rw [ok.ents] at this
              obtain ⟨e0, he0, hh⟩ := List.mem_map.1 this
              injection hh with a1 a2
              rw [← a2]
              exact (hi.strm s hsm).bnd e0 he0 k (by rw [a1]; exact hk) ho
          · rfl
      · rw [if_neg hxs]
        exact ⟨x, hx, rfl, fun _ _ _ _ => Iff.rfl⟩

theorem cov_step {st st' : St} (h : Inv st) (hc : Cov st) {a : Act} (hs : step st a = .ok st') : Cov st' := by
  cases a with
  | subscribe m l => cases hs; exact cov_subscribe h hc m l
  | close c => cases hs; exact cov_close hc c
  | deliver n s b t j f l => exact cov_deliver h hc hs
  | setLevel l => cases hs; exact hc
  | readStreams sel r =>
    simp only [step] at hs
    cases hr : readStreams st sel r with
    | error x => rw [hr] at hs; cases hs
    | ok p =>
      rw [hr] at hs
      cases hs
      unfold readStreams at hr
      split at hr
      · cases hr
      · cases hr
        cases r with
        | false => exact hc
        | true =>
          refine hc.of (fun _ => rfl) ?_
          intro s1 hs1
          obtain ⟨s, hs, rfl⟩ := List.mem_map.1 hs1
          refine ⟨s, hs, by split <;> rfl, fun c k _ _ => ?_⟩
          split
          · exact has_of_map (by simp [resetStream, List.map_map, Function.comp_def]) c
          · rfl
  | readClients r =>
    cases hs
    cases r with
    | false => exact hc
    | true =>
      refine hc.of resetIf_shape ?_
      intro s1 hs1
      obtain ⟨s, hs, rfl⟩ := List.mem_map.1 hs1
      refine ⟨s, hs, rfl, fun c k _ _ => has_of_map ?_ c⟩
      dsimp only
      rw [List.map_map]
      refine List.map_congr_left fun e _ => ?_
      simp only [Function.comp_apply]
      split <;> rfl
  | resetAll =>
    cases hs
    refine hc.of resetIf_shape ?_
    intro s1 hs1
    obtain ⟨s, hs, rfl⟩ := List.mem_map.1 hs1
    refine ⟨s, hs, rfl, fun c k _ _ => has_of_map ?_ c⟩
    dsimp only
    rw [List.map_map]
    refine List.map_congr_left fun e _ => ?_
    simp only [Function.comp_apply]
    split <;> rfl

theorem cov_run : ∀ {as : List Act} {st st' : St}, Inv st → Cov st → run st as = .ok st' → Cov st'
  | [], st, st', _, hc, hr => by cases hr; exact hc
  | a :: as, st, st', h, hc, hr => by
    rw [run] at hr
    split at hr
    · cases hr
    · rename_i hs
      exact cov_run (inv_step h hs) (cov_step h hc hs) hr

theorem cov_reach {st : St} (h : Reachable st) : Cov st := by
  obtain ⟨as, h⟩ := h
  exact cov_run inv_init (by intro s hs; cases hs) h

/-- which clients a stream is delivered to, and has counters for -/
theorem bound_iff' {st : St} (hi : Inv st) (hv : Cov st) {s : Stream} (hs : s ∈ st.streams) (c : Nat) :
    (∃ e ∈ s.ents, e.client = c ∧ e.bound = true) ↔ ∃ k, st.clients[c]? = some k ∧ k.isOpen = true ∧ Wants k.m s.name := by
  have hS := hi.strm s hs
  have hw : ∀ k, st.clients[c]? = some k → (covers st.clients c s.name = true ↔ Wants k.m s.name) := by
    intro k hk
    unfold covers
    rw [hk]
    cases hm : k.m <;> simp [Wants, hm]
  constructor
  · rintro ⟨e, he, rfl, hb⟩
    obtain ⟨k, hk, ho⟩ := hS.live e he hb
    exact ⟨k, hk, ho, (hw k hk).1 ((hv s hs _ k hk ho).1 ⟨e, he, rfl⟩)⟩
  · rintro ⟨k, hk, ho, h⟩
    obtain ⟨e, he, rfl⟩ := (hv s hs c k hk ho).2 ((hw k hk).2 h)
    exact ⟨e, he, rfl, hS.bnd e he k hk ho⟩

theorem bound_iff {st : St} (hr : Reachable st) {s : Stream} (hs : s ∈ st.streams) (c : Nat) :
    (∃ e ∈ s.ents, e.client = c ∧ e.bound = true) ↔ ∃ k, st.clients[c]? = some k ∧ k.isOpen = true ∧ Wants k.m s.name :=
  bound_iff' (inv_reach hr) (cov_reach hr) hs c

end Verif.StreamStat
