import Verif.StreamSub.Model

namespace Verif.StreamSub

/-- client `c` exists and is open -/
def opn (cs : List Client) (c : Nat) : Bool :=
  match cs[c]? with
  | some k => k.isOpen
  | none => false

theorem opn_lt {cs c} (h : opn cs c = true) : c < cs.length := by
  unfold opn at h
  split at h
  · rename_i k hk; exact (List.getElem?_eq_some_iff.1 hk).1
  · cases h

theorem covers_lt {cs c n} (h : covers cs c n = true) : c < cs.length := by
  unfold covers at h
  split at h
  · rename_i k hk; exact (List.getElem?_eq_some_iff.1 hk).1
  · cases h

theorem covers_append {cs c n k} (h : c < cs.length) : covers (cs ++ [k]) c n = covers cs c n := by
  unfold covers; rw [List.getElem?_append_left h]

theorem opn_append {cs c k} (h : c < cs.length) : opn (cs ++ [k]) c = opn cs c := by
  unfold opn; rw [List.getElem?_append_left h]

theorem covers_new {cs n k} : covers (cs ++ [k]) cs.length n = k.m.covers n := by
  unfold covers; simp

theorem opn_new {cs k} : opn (cs ++ [k]) cs.length = k.isOpen := by
  unfold opn; simp

theorem covers_modify {cs c n x} :
    covers (cs.modify x (fun k => { k with isOpen := false })) c n = covers cs c n := by
  unfold covers
  rw [List.getElem?_modify]
  cases cs[c]? with
  | none => rfl
  | some k => simp only [Option.map_eq_map, Option.map_some]; split <;> rfl

theorem opn_modify {cs c x} :
    opn (cs.modify x (fun k => { k with isOpen := false })) c = if c = x then false else opn cs c := by
  unfold opn
  rw [List.getElem?_modify]
  cases cs[c]? with
  | none => simp
  | some k =>
    simp only [Option.map_eq_map, Option.map_some]
    by_cases h : x = c
    · simp [h]
    · simp [h, Ne.symm h]

/-- the entries of a stream are in order and the bound ones are exactly the open clients that cover it -/
structure StreamOk (cs : List Client) (s : Stream) : Prop where
  sorted : (s.ents.map (·.1)).Pairwise (· < ·)
  bound : ∀ x ∈ s.ents, x.1 < cs.length
  alive : ∀ c, (c, true) ∈ s.ents ↔ (opn cs c = true ∧ covers cs c s.name = true)

structure DelOk (st : St) (d : Del) : Prop where
  ex : ∃ s ∈ st.streams, s.name = d.name
  curb : ∀ k, d.cur = some k → k < st.clients.length
  lo : ∀ c, (d.id, c) ∈ st.log → (∃ k, d.cur = some k ∧ c ≤ k) ∧ covers st.clients c d.name = true ∧ c ∉ d.closed
  hi : ∀ s ∈ st.streams, s.name = d.name → ∀ c k, (c, true) ∈ s.ents → d.cur = some k → c ≤ k → (d.id, c) ∈ st.log
  cl : ∀ c ∈ d.closed, opn st.clients c = false ∧ c < st.clients.length

structure Inv (st : St) : Prop where
  names : (st.streams.map (·.name)).Nodup
  sok : ∀ s ∈ st.streams, StreamOk st.clients s
  exact_ : ∀ (c : Nat) (k : Client) (n : Nat), st.clients[c]? = some k → k.isOpen = true → k.m = .exact n → ∃ s ∈ st.streams, s.name = n
  rqs : st.regexq.Pairwise (· < ·)
  rq : ∀ c, c ∈ st.regexq ↔ ∃ k, st.clients[c]? = some k ∧ k.isOpen = true ∧ k.m.isRegex = true
  dids : (st.dels.map (·.id)).Nodup
  didb : ∀ d ∈ st.dels, d.id < st.nextDel
  logb : ∀ p ∈ st.log, p.1 < st.nextDel
  lognd : st.log.Nodup
  dok : ∀ d ∈ st.dels, DelOk st d

theorem inv_init : Inv init := by
  constructor <;> simp [init]

theorem name_unique {l : List Stream} (h : (l.map (·.name)).Nodup) {s t : Stream} (hs : s ∈ l) (ht : t ∈ l)
    (hn : s.name = t.name) : s = t := by
  induction l with
  | nil => simp at hs
  | cons a l ih =>
    rw [List.map_cons, List.nodup_cons] at h
    rcases List.mem_cons.1 hs with hs | hs <;> rcases List.mem_cons.1 ht with ht | ht
    · rw [hs, ht]
    · exact absurd (by rw [← hs, hn]; exact List.mem_map_of_mem ht) h.1
    · exact absurd (by rw [← ht, ← hn]; exact List.mem_map_of_mem hs) h.1
    · exact ih h.2 hs ht

theorem id_unique {l : List Del} (h : (l.map (·.id)).Nodup) {s t : Del} (hs : s ∈ l) (ht : t ∈ l)
    (hn : s.id = t.id) : s = t := by
  induction l with
  | nil => simp at hs
  | cons a l ih =>
    rw [List.map_cons, List.nodup_cons] at h
    rcases List.mem_cons.1 hs with hs | hs <;> rcases List.mem_cons.1 ht with ht | ht
    · rw [hs, ht]
    · exact absurd (by rw [← hs, hn]; exact List.mem_map_of_mem ht) h.1
    · exact absurd (by rw [← ht, ← hn]; exact List.mem_map_of_mem hs) h.1
    · exact ih h.2 hs ht

/-- `__stream_get` keeps everything in order, keeps the existing streams and makes the stream exist -/
theorem streamGet_inv {st : St} (hi : Inv st) (n : Nat) : Inv (streamGet st n) ∧
    (∃ s ∈ (streamGet st n).streams, s.name = n) ∧ (∀ s ∈ st.streams, s ∈ (streamGet st n).streams) ∧
    (streamGet st n).clients = st.clients ∧ (streamGet st n).dels = st.dels ∧ (streamGet st n).log = st.log ∧
    (streamGet st n).nextDel = st.nextDel ∧ (streamGet st n).regexq = st.regexq := by
  by_cases h : st.streams.any (fun s => decide (s.name = n)) = true
  · have he : streamGet st n = st := by unfold streamGet; rw [if_pos h]
    rw [he]
    refine ⟨hi, ?_, fun s hs => hs, rfl, rfl, rfl, rfl, rfl⟩
    rw [List.any_eq_true] at h
    obtain ⟨s, hs, hn⟩ := h
    exact ⟨s, hs, by simpa using hn⟩
  · have he : streamGet st n = { st with streams := ⟨n, (st.regexq.filter (fun c => covers st.clients c n)).map
        (fun c => (c, true))⟩ :: st.streams } := by unfold streamGet; rw [if_neg h]
    have hfresh : ∀ s ∈ st.streams, s.name ≠ n := by
      intro s hs hn
      exact h (List.any_eq_true.2 ⟨s, hs, by simp [hn]⟩)
    rw [he]
    refine ⟨?_, ⟨_, List.mem_cons_self, rfl⟩, fun s hs => List.mem_cons_of_mem _ hs, rfl, rfl, rfl, rfl, rfl⟩
    refine ⟨?_, ?_, ?_, hi.rqs, hi.rq, hi.dids, hi.didb, hi.logb, hi.lognd, ?_⟩
    · simp only [List.map_cons, List.nodup_cons]
      refine ⟨?_, hi.names⟩
      intro hm
      obtain ⟨s, hs, hn⟩ := List.mem_map.1 hm
      exact hfresh s hs hn
    · intro s hs
      rcases List.mem_cons.1 hs with rfl | hs
      · refine ⟨?_, ?_, ?_⟩
        · simp only [List.map_map, Function.comp_def, List.map_id']
          exact hi.rqs.filter _
        · intro x hx
          obtain ⟨c, hc, rfl⟩ := List.mem_map.1 hx
          exact covers_lt (List.mem_filter.1 hc).2
        · intro c
          simp only [List.mem_map, Prod.mk.injEq, and_true, exists_eq_right, List.mem_filter]
          rw [hi.rq]
          constructor
          · rintro ⟨⟨k, hk, ho, _⟩, hc⟩
            refine ⟨?_, hc⟩
            unfold opn; rw [hk]; exact ho
          · rintro ⟨ho, hc⟩
            refine ⟨?_, hc⟩
            unfold opn at ho
            split at ho
            · rename_i k hk
              refine ⟨k, hk, ho, ?_⟩
              cases hm : k.m with
              | regex p => rfl
              | exact n' =>
                obtain ⟨s, hs, hn⟩ := hi.exact_ c k n' hk ho hm
                unfold covers at hc
                rw [hk] at hc
                simp only [hm, Match.covers, decide_eq_true_eq] at hc
                exact absurd (hn.trans hc) (hfresh s hs)
            · cases ho
      · exact hi.sok s hs
    · intro c k n' hk ho hm
      obtain ⟨s, hs, hn⟩ := hi.exact_ c k n' hk ho hm
      exact ⟨s, List.mem_cons_of_mem _ hs, hn⟩
    · intro d hd
      have hdo := hi.dok d hd
      refine ⟨?_, hdo.curb, hdo.lo, ?_, hdo.cl⟩
      · obtain ⟨s, hs, hn⟩ := hdo.ex
        exact ⟨s, List.mem_cons_of_mem _ hs, hn⟩
      · intro s hs hn
        rcases List.mem_cons.1 hs with rfl | hs
        · obtain ⟨s', hs', hn'⟩ := hdo.ex
          exact absurd (hn'.trans hn.symm) (hfresh s' hs')
        · exact hdo.hi s hs hn

theorem map_names {l : List Stream} {f : Stream → Stream} (hf : ∀ s, (f s).name = s.name) :
    (l.map f).map (·.name) = l.map (·.name) := by
  rw [List.map_map]
  exact List.map_congr_left (fun s _ => hf s)

/-- adding client `c` (the newest) to the streams it covers -/
theorem bind_inv {st : St} (hi : Inv st) (m : Match) (l : Bool) (f : Stream → Stream) (rq : List Nat)
    (hex : ∀ n, m = .exact n → ∃ s ∈ st.streams, s.name = n)
    (hf : ∀ s ∈ st.streams, f s = if m.covers s.name then s.bind st.clients.length else s)
    (hn : ∀ s, (f s).name = s.name)
    (hrq : rq = if m.isRegex then st.regexq ++ [st.clients.length] else st.regexq) :
    Inv { st with clients := st.clients ++ [⟨m, l, true⟩], regexq := rq, streams := st.streams.map f } := by
  have hlen : (st.clients ++ [(⟨m, l, true⟩ : Client)]).length = st.clients.length + 1 := by simp
  refine ⟨?_, ?_, ?_, ?_, ?_, hi.dids, hi.didb, hi.logb, hi.lognd, ?_⟩
  · simp only [map_names hn]; exact hi.names
  · intro s' hs'
    obtain ⟨s, hs, rfl⟩ := List.mem_map.1 hs'
    have ho := hi.sok s hs
    have hnotin : ∀ b, (st.clients.length, b) ∉ s.ents := fun b hb => by
      have := ho.bound _ hb; simp at this
    rw [hf s hs]
    by_cases hc : m.covers s.name = true
    · rw [if_pos hc]
      refine ⟨?_, ?_, ?_⟩
      · simp only [Stream.bind, List.map_append, List.map_cons, List.map_nil]
        rw [List.pairwise_append]
        refine ⟨ho.sorted, by simp, ?_⟩
        intro a ha b hb
        obtain ⟨x, hx, rfl⟩ := List.mem_map.1 ha
        simp at hb; subst hb
        exact ho.bound x hx
      · intro x hx
        simp only [Stream.bind, List.mem_append, List.mem_singleton] at hx
        simp only [hlen]
        rcases hx with hx | rfl
        · have := ho.bound x hx; omega
        · simp only; omega
      · intro c
        simp only [Stream.bind, List.mem_append, List.mem_singleton, Prod.mk.injEq, and_true]
        rw [ho.alive]
        by_cases h1 : c < st.clients.length
        · rw [opn_append h1, covers_append h1]
          simp [Nat.ne_of_lt h1]
        · constructor
          · rintro (⟨h, _⟩ | rfl)
            · exact absurd (opn_lt h) h1
            · exact ⟨by rw [opn_new], by rw [covers_new]; exact hc⟩
          · rintro ⟨h, _⟩
            have h3 := opn_lt h
            rw [hlen] at h3
            exact Or.inr (by omega)
    · rw [if_neg hc]
      refine ⟨ho.sorted, fun x hx => by have := ho.bound x hx; simp only [hlen]; omega, ?_⟩
      intro c
      rw [ho.alive]
      by_cases h1 : c < st.clients.length
      · simp only [opn_append h1, covers_append h1]
      · constructor
        · rintro ⟨h, _⟩; exact absurd (opn_lt h) h1
        · rintro ⟨h, h2⟩
          have h3 := opn_lt h
          rw [hlen] at h3
          have : c = st.clients.length := by omega
          subst this
          rw [covers_new] at h2
          exact absurd h2 hc
  · intro c k n hk ho hm
    by_cases h1 : c < st.clients.length
    · simp only [List.getElem?_append_left h1] at hk
      obtain ⟨s, hs, he⟩ := hi.exact_ c k n hk ho hm
      exact ⟨f s, List.mem_map_of_mem hs, by rw [hn]; exact he⟩
    · simp only at hk
      have hc := (List.getElem?_eq_some_iff.1 hk).1
      have : c = st.clients.length := by rw [hlen] at hc; omega
      subst this
      simp at hk
      subst hk
      obtain ⟨s, hs, he⟩ := hex n hm
      exact ⟨f s, List.mem_map_of_mem hs, by rw [hn]; exact he⟩
  · rw [hrq]
    split
    · rw [List.pairwise_append]
      refine ⟨hi.rqs, by simp, ?_⟩
      intro a ha b hb
      simp at hb; subst hb
      obtain ⟨k, hk, _⟩ := (hi.rq a).1 ha
      exact (List.getElem?_eq_some_iff.1 hk).1
    · exact hi.rqs
  · intro c
    by_cases h1 : c < st.clients.length
    · simp only [List.getElem?_append_left h1]
      rw [← hi.rq, hrq]
      split
      · simp [Nat.ne_of_lt h1]
      · rfl
    · have hnr : c ∉ st.regexq := by
        intro hc
        obtain ⟨k, hk, _⟩ := (hi.rq c).1 hc
        exact h1 (List.getElem?_eq_some_iff.1 hk).1
      by_cases h2 : c = st.clients.length
      · subst h2
        simp only [List.getElem?_concat_length, Option.some.injEq, exists_eq_left', true_and]
        rw [hrq]
        split
        · rename_i h; simp [h]
        · rename_i h; simp [h, hnr]
      · have : (st.clients ++ [(⟨m, l, true⟩ : Client)])[c]? = none := by
          rw [List.getElem?_eq_none_iff, hlen]; omega
        simp only [this]
        rw [hrq]
        split
        · simp [hnr, h2]
        · simp [hnr]
  · intro d hd
    have hdo := hi.dok d hd
    refine ⟨?_, ?_, ?_, ?_, ?_⟩
    · obtain ⟨s, hs, he⟩ := hdo.ex
      exact ⟨f s, List.mem_map_of_mem hs, by rw [hn]; exact he⟩
    · intro k hk; have := hdo.curb k hk; simp only [hlen]; omega
    · intro c hc
      obtain ⟨h1, h2, h3⟩ := hdo.lo c hc
      exact ⟨h1, by rw [covers_append (covers_lt h2)]; exact h2, h3⟩
    · intro s' hs' he c k hcs hk hle
      obtain ⟨s, hs, rfl⟩ := List.mem_map.1 hs'
      rw [hn] at he
      rw [hf s hs] at hcs
      have hck := hdo.curb k hk
      by_cases hc : m.covers s.name = true
      · rw [if_pos hc] at hcs
        simp only [Stream.bind, List.mem_append, List.mem_singleton, Prod.mk.injEq, and_true] at hcs
        rcases hcs with hcs | rfl
        · exact hdo.hi s hs he c k hcs hk hle
        · omega
      · rw [if_neg hc] at hcs
        exact hdo.hi s hs he c k hcs hk hle
    · intro c hc
      obtain ⟨h1, h2⟩ := hdo.cl c hc
      exact ⟨by rw [opn_append h2]; exact h1, by simp only [hlen]; omega⟩

theorem subscribe_inv {st : St} (hi : Inv st) (m : Match) (l : Bool) : Inv (subscribe st m l) := by
  cases m with
  | regex p =>
    simp only [subscribe]
    exact bind_inv hi (.regex p) l (fun s => if p s.name then s.bind st.clients.length else s) _ (by simp)
      (fun s _ => rfl) (fun s => by split <;> rfl) rfl
  | exact n =>
    -- the new client is not a regex client, so creating the stream first is the same
    have hcomm : streamGet { st with clients := st.clients ++ [⟨.exact n, l, true⟩] } n =
        { streamGet st n with clients := st.clients ++ [⟨.exact n, l, true⟩] } := by
      unfold streamGet
      simp only
      split
      · rfl
      · have : st.regexq.filter (fun c => covers (st.clients ++ [⟨.exact n, l, true⟩]) c n) =
            st.regexq.filter (fun c => covers st.clients c n) := by
          apply List.filter_congr
          intro c hc
          obtain ⟨k, hk, _⟩ := (hi.rq c).1 hc
          exact covers_append (List.getElem?_eq_some_iff.1 hk).1
        simp only [this]
    obtain ⟨h1, h2, _, h4, _, _, _, h8⟩ := streamGet_inv hi n
    have hb := bind_inv h1 (.exact n) l (fun s => if s.name = n then s.bind st.clients.length else s)
      (streamGet st n).regexq (by rintro n' h; injection h with h; subst h; exact h2)
      (fun s _ => by
        simp only [Match.covers, h4, decide_eq_true_eq]
        by_cases h : s.name = n
        · simp [h]
        · simp [h, Ne.symm h])
      (fun s => by split <;> rfl) rfl
    simp only [subscribe]
    rw [hcomm]
    rw [h4] at hb
    exact hb

theorem mem_unbind {s : Stream} {c x : Nat} : (c, true) ∈ (s.unbind x).ents ↔ (c, true) ∈ s.ents ∧ c ≠ x := by
  simp only [Stream.unbind, List.mem_map]
  constructor
  · rintro ⟨y, hy, h⟩
    split at h
    · simp at h
    · rename_i hne; subst h; exact ⟨hy, hne⟩
  · rintro ⟨h, hne⟩
    exact ⟨(c, true), h, by simp [hne]⟩

theorem close_inv {st : St} (hi : Inv st) (x : Nat) : Inv (close st x) := by
  have hfst : ∀ s : Stream, (s.unbind x).ents.map (·.1) = s.ents.map (·.1) := by
    intro s
    simp only [Stream.unbind, List.map_map]
    apply List.map_congr_left
    intro y _
    simp only [Function.comp]
    split <;> rfl
  refine ⟨?_, ?_, ?_, ?_, ?_, hi.dids, hi.didb, hi.logb, hi.lognd, ?_⟩
  · simp only [close, map_names (f := fun s => s.unbind x) (fun s => rfl)]; exact hi.names
  · intro s' hs'
    obtain ⟨s, hs, rfl⟩ := List.mem_map.1 hs'
    have ho := hi.sok s hs
    refine ⟨by rw [hfst]; exact ho.sorted, ?_, ?_⟩
    · intro y hy
      have : y.1 ∈ (s.unbind x).ents.map (·.1) := List.mem_map_of_mem hy
      rw [hfst] at this
      obtain ⟨z, hz, he⟩ := List.mem_map.1 this
      have := ho.bound z hz
      simp only [close, List.length_modify]; omega
    · intro c
      rw [mem_unbind, ho.alive]
      simp only [close, opn_modify, covers_modify]
      by_cases h : c = x
      · simp [h]
      · simp [h, Stream.unbind]
  · intro c k n hk ho hm
    simp only [close, List.getElem?_modify] at hk
    cases hc : st.clients[c]? with
    | none => rw [hc] at hk; simp at hk
    | some k0 =>
      rw [hc] at hk
      simp only [Option.map_eq_map, Option.map_some, Option.some.injEq] at hk
      split at hk
      · subst hk; cases ho
      · subst hk
        obtain ⟨s, hs, he⟩ := hi.exact_ c k0 n hc ho hm
        exact ⟨s.unbind x, List.mem_map_of_mem hs, he⟩
  · exact hi.rqs.sublist List.erase_sublist
  · intro c
    have hnd : st.regexq.Nodup := hi.rqs.imp (fun h => Nat.ne_of_lt h)
    simp only [close, List.getElem?_modify]
    rw [hnd.mem_erase_iff, hi.rq]
    cases hc : st.clients[c]? with
    | none => simp
    | some k =>
      by_cases h : x = c
      · simp [h]
      · simp [h, Ne.symm h]
  · intro d hd
    have hdo := hi.dok d hd
    refine ⟨?_, ?_, ?_, ?_, ?_⟩
    · obtain ⟨s, hs, he⟩ := hdo.ex
      exact ⟨s.unbind x, List.mem_map_of_mem hs, he⟩
    · intro k hk; simp only [close, List.length_modify]; exact hdo.curb k hk
    · intro c hc
      simp only [close, covers_modify]; exact hdo.lo c hc
    · intro s' hs' he c k hcs hk hle
      obtain ⟨s, hs, rfl⟩ := List.mem_map.1 hs'
      rw [mem_unbind] at hcs
      exact hdo.hi s hs he c k hcs.1 hk hle
    · intro c hc
      obtain ⟨h1, h2⟩ := hdo.cl c hc
      simp only [close, opn_modify, List.length_modify]
      exact ⟨by split; rfl; exact h1, h2⟩

theorem begin_inv {st : St} (hi : Inv st) (n : Nat) (b : Bool) : Inv (begin st n b) := by
  obtain ⟨h1, h2, _, _, _, _, _, _⟩ := streamGet_inv hi n
  unfold begin
  simp only
  generalize streamGet st n = t at *
  refine ⟨h1.names, h1.sok, h1.exact_, h1.rqs, h1.rq, ?_, ?_, ?_, h1.lognd, ?_⟩
  · simp only [List.map_cons, List.nodup_cons]
    refine ⟨?_, h1.dids⟩
    intro hm
    obtain ⟨d, hd, he⟩ := List.mem_map.1 hm
    have := h1.didb d hd
    omega
  · intro d hd
    rcases List.mem_cons.1 hd with rfl | hd
    · simp
    · have := h1.didb d hd; simp only; omega
  · intro p hp
    have := h1.logb p hp; simp only; omega
  · intro d hd
    rcases List.mem_cons.1 hd with rfl | hd
    · refine ⟨h2, by simp, ?_, by simp, ?_⟩
      · intro c hc
        have := h1.logb _ hc
        simp at this
      · intro c hc
        simp only [closedIds, List.mem_filter, List.mem_range] at hc
        refine ⟨?_, hc.1⟩
        have := hc.2
        unfold opn
        split
        · rename_i k hk; rw [hk] at this; simpa using this
        · rfl
    · have hdo := h1.dok d hd
      exact ⟨hdo.ex, hdo.curb, hdo.lo, hdo.hi, hdo.cl⟩

theorem finish_inv {st : St} (hi : Inv st) (d : Del) : Inv (finish st d) := by
  have hsub : ∀ x ∈ st.dels.filter (fun x => decide (x.id ≠ d.id)), x ∈ st.dels :=
    fun x hx => (List.mem_filter.1 hx).1
  have hnd : ((st.dels.filter (fun x => decide (x.id ≠ d.id))).map (·.id)).Nodup :=
    hi.dids.sublist (List.Sublist.map _ List.filter_sublist)
  cases hg : d.gc with
  | false =>
    simp only [finish, hg, Bool.false_eq_true, if_false]
    refine ⟨hi.names, hi.sok, hi.exact_, hi.rqs, hi.rq, hnd, fun x hx => hi.didb x (hsub x hx), hi.logb, hi.lognd, ?_⟩
    intro x hx
    have hdo := hi.dok x (hsub x hx)
    exact ⟨hdo.ex, hdo.curb, hdo.lo, hdo.hi, hdo.cl⟩
  | true =>
    simp only [finish, hg, if_true]
    have hname : ∀ s : Stream, (if s.name = d.name then s.sweep else s).name = s.name := by
      intro s; split <;> rfl
    have hmem : ∀ (s : Stream) c, (c, true) ∈ (if s.name = d.name then s.sweep else s).ents ↔ (c, true) ∈ s.ents := by
      intro s c
      split
      · simp [Stream.sweep]
      · rfl
    have hsl : ∀ s : Stream, (if s.name = d.name then s.sweep else s).ents.Sublist s.ents := by
      intro s; split
      · exact List.filter_sublist
      · exact List.Sublist.refl _
    refine ⟨?_, ?_, ?_, hi.rqs, hi.rq, hnd, fun x hx => hi.didb x (hsub x hx), hi.logb, hi.lognd, ?_⟩
    · simp only [map_names hname]; exact hi.names
    · intro s' hs'
      obtain ⟨s, hs, rfl⟩ := List.mem_map.1 hs'
      have ho := hi.sok s hs
      refine ⟨ho.sorted.sublist ((hsl s).map _), fun x hx => ho.bound x ((hsl s).subset hx), ?_⟩
      intro c; rw [hmem, hname]; exact ho.alive c
    · intro c k n hk ho hm
      obtain ⟨s, hs, he⟩ := hi.exact_ c k n hk ho hm
      exact ⟨_, List.mem_map_of_mem hs, by rw [hname]; exact he⟩
    · intro x hx
      have hdo := hi.dok x (hsub x hx)
      refine ⟨?_, hdo.curb, hdo.lo, ?_, hdo.cl⟩
      · obtain ⟨s, hs, he⟩ := hdo.ex
        exact ⟨_, List.mem_map_of_mem hs, by rw [hname]; exact he⟩
      · intro s' hs' he c k hcs hk hle
        obtain ⟨s, hs, rfl⟩ := List.mem_map.1 hs'
        rw [hmem] at hcs
        rw [hname] at he
        exact hdo.hi s hs he c k hcs hk hle

/-- in an ordered list, what follows entry `k` are the entries with larger numbers -/
theorem after_some {k : Nat} : ∀ (l : List (Nat × Bool)), (l.map (·.1)).Pairwise (· < ·) → k ∈ l.map (·.1) →
    after l (some k) = l.filter (fun x => decide (k < x.1)) := by
  intro l
  induction l with
  | nil => intro _ h; simp at h
  | cons a l ih =>
    intro hp hk
    rw [List.map_cons, List.pairwise_cons] at hp
    by_cases ha : a.1 = k
    · have hall : l.filter (fun x => decide (k < x.1)) = l := by
        rw [List.filter_eq_self]
        intro x hx
        have := hp.1 x.1 (List.mem_map_of_mem hx)
        simp only [decide_eq_true_eq]; omega
      simp only [after, List.dropWhile_cons, ha, ne_eq, not_true_eq_false, decide_false, Bool.false_eq_true, if_false,
        List.drop_succ_cons, List.drop_zero]
      rw [List.filter_cons, if_neg (by simp [ha]), hall]
    · have hk' : k ∈ l.map (·.1) := by
        rw [List.map_cons, List.mem_cons] at hk
        rcases hk with rfl | hk
        · exact absurd rfl ha
        · exact hk
      have hlt : a.1 < k := hp.1 k hk'
      have := ih hp.2 hk'
      simp only [after] at this ⊢
      rw [List.dropWhile_cons, if_pos (by simp [ha]), this, List.filter_cons, if_neg (by simp; omega)]

/-- the entry the loop goes to next -/
theorem after_head {l : List (Nat × Bool)} {cur : Option Nat} {c : Nat} {b : Bool} {r : List (Nat × Bool)}
    (hp : (l.map (·.1)).Pairwise (· < ·)) (hk : ∀ k, cur = some k → k ∈ l.map (·.1))
    (h : after l cur = (c, b) :: r) : (c, b) ∈ l ∧ (∀ k, cur = some k → k < c) ∧
      ∀ x ∈ l, (∀ k, cur = some k → k < x.1) → c ≤ x.1 := by
  cases cur with
  | none =>
    simp only [after] at h
    subst h
    refine ⟨by simp, by simp, ?_⟩
    intro x hx _
    rw [List.map_cons, List.pairwise_cons] at hp
    rcases List.mem_cons.1 hx with rfl | hx
    · exact Nat.le_refl _
    · exact Nat.le_of_lt (hp.1 x.1 (List.mem_map_of_mem hx))
  | some k =>
    rw [after_some l hp (hk k rfl)] at h
    have hm : (c, b) ∈ l.filter (fun x => decide (k < x.1)) := by rw [h]; simp
    rw [List.mem_filter] at hm
    refine ⟨hm.1, ?_, ?_⟩
    · intro k' hk'; injection hk' with hk'; subst hk'; simpa using hm.2
    · intro x hx hlt
      have hx' : x ∈ l.filter (fun x => decide (k < x.1)) := by
        rw [List.mem_filter]; exact ⟨hx, by simpa using hlt k rfl⟩
      rw [h] at hx'
      have hp' : (((c, b) :: r).map (·.1)).Pairwise (· < ·) := by
        rw [← h]; exact hp.sublist (List.Sublist.map _ List.filter_sublist)
      rw [List.map_cons, List.pairwise_cons] at hp'
      rcases List.mem_cons.1 hx' with rfl | hx'
      · exact Nat.le_refl _
      · exact Nat.le_of_lt (hp'.1 x.1 (List.mem_map_of_mem hx'))

theorem fst_unique {l : List (Nat × Bool)} (h : (l.map (·.1)).Pairwise (· < ·)) {c : Nat} {a b : Bool}
    (ha : (c, a) ∈ l) (hb : (c, b) ∈ l) : a = b := by
  induction l with
  | nil => simp at ha
  | cons x l ih =>
    rw [List.map_cons, List.pairwise_cons] at h
    rcases List.mem_cons.1 ha with ha | ha <;> rcases List.mem_cons.1 hb with hb | hb
    · rw [← ha] at hb; injection hb with _ hb; exact hb.symm
    · rw [← ha] at h; exact absurd (h.1 c (List.mem_map_of_mem (f := (·.1)) hb)) (Nat.lt_irrefl _)
    · rw [← hb] at h; exact absurd (h.1 c (List.mem_map_of_mem (f := (·.1)) ha)) (Nat.lt_irrefl _)
    · exact ih h.2 ha hb

theorem setDel_inv {st : St} (hi : Inv st) {d : Del} (hd : d ∈ st.dels) {s : Stream} (hs : s ∈ st.streams)
    (hn : s.name = d.name) {c : Nat} {b g : Bool} {r : List (Nat × Bool)} {lg : List (Nat × Nat)}
    (hk : ∀ k, d.cur = some k → k ∈ s.ents.map (·.1)) (ha : after s.ents d.cur = (c, b) :: r)
    (hlg : lg = if b then (d.id, c) :: st.log else st.log) :
    Inv { setDel st { d with cur := some c, gc := g } with log := lg } := by
  have ho := hi.sok s hs
  have hdo := hi.dok d hd
  obtain ⟨a1, a2, a3⟩ := after_head ho.sorted hk ha
  have hids : (st.dels.map (fun x => if x.id = d.id then { d with cur := some c, gc := g } else x)).map (·.id) =
      st.dels.map (·.id) := by
    rw [List.map_map]
    apply List.map_congr_left
    intro x _
    simp only [Function.comp]
    split
    · rename_i h; exact h.symm
    · rfl
  have hnew : (d.id, c) ∉ st.log := by
    intro h
    obtain ⟨⟨k, hk1, hk2⟩, _⟩ := hdo.lo c h
    have := a2 k hk1
    omega
  have hold : ∀ p, p ∈ lg ↔ p ∈ st.log ∨ (b = true ∧ p = (d.id, c)) := by
    intro p; rw [hlg]; cases b
    · simp
    · simp [or_comm]
  refine ⟨hi.names, hi.sok, hi.exact_, hi.rqs, hi.rq, ?_, ?_, ?_, ?_, ?_⟩
  · simp only [setDel]; rw [hids]; exact hi.dids
  · intro x hx
    have : x.id ∈ st.dels.map (·.id) := by rw [← hids]; exact List.mem_map_of_mem hx
    obtain ⟨y, hy, he⟩ := List.mem_map.1 this
    have := hi.didb y hy
    simp only [setDel]; omega
  · intro p hp
    rcases (hold p).1 hp with h | ⟨_, rfl⟩
    · exact hi.logb p h
    · exact hi.didb d hd
  · simp only; rw [hlg]; split
    · exact List.nodup_cons.2 ⟨hnew, hi.lognd⟩
    · exact hi.lognd
  · intro x hx
    obtain ⟨y, hy, rfl⟩ := List.mem_map.1 hx
    split
    · -- the delivery that moved
      refine ⟨hdo.ex, ?_, ?_, ?_, hdo.cl⟩
      · intro k hk'
        injection hk' with hk'; subst hk'
        exact ho.bound _ a1
      · intro c' hc'
        simp only [Option.some.injEq, exists_eq_left']
        rcases (hold _).1 hc' with h | ⟨hb, h⟩
        · obtain ⟨⟨k, h1, h2⟩, h3⟩ := hdo.lo c' h
          exact ⟨by have := a2 k h1; omega, h3⟩
        · injection h with _ h; subst h; subst hb
          obtain ⟨q1, q2⟩ := (ho.alive c').1 a1
          refine ⟨Nat.le_refl _, by rw [← hn]; exact q2, ?_⟩
          intro hcl
          have := (hdo.cl c' hcl).1
          rw [q1] at this; cases this
      · intro s' hs' he c' k hcs hk' hle
        injection hk' with hk'; subst hk'
        have : s' = s := name_unique hi.names hs' hs (he.trans hn.symm)
        subst this
        rw [hold]
        by_cases hle' : ∃ k, d.cur = some k ∧ c' ≤ k
        · obtain ⟨k, h1, h2⟩ := hle'
          exact Or.inl (hdo.hi s' hs hn c' k hcs h1 h2)
        · have hgt : ∀ k, d.cur = some k → k < c' := by
            intro k h1
            refine Classical.byContradiction fun h2 => hle' ⟨k, h1, by omega⟩
          have := a3 _ hcs hgt
          simp only at this
          have hcc : c' = c := by omega
          subst hcc
          have := fst_unique ho.sorted hcs a1
          exact Or.inr ⟨this.symm, rfl⟩
    · rename_i hne
      have hyo := hi.dok y hy
      have hne' : ∀ c', (y.id, c') ≠ (d.id, c) := by
        intro c' h; injection h with h _; exact hne h
      refine ⟨hyo.ex, hyo.curb, ?_, ?_, hyo.cl⟩
      · intro c' hc'
        rcases (hold _).1 hc' with h | ⟨_, h⟩
        · exact hyo.lo c' h
        · exact absurd h (hne' c')
      · intro s' hs' he c' k hcs hk' hle
        rw [hold]; exact Or.inl (hyo.hi s' hs' he c' k hcs hk' hle)

/-- what the guard of `next` says -/
theorem guard_false {ents : List (Nat × Bool)} {cur : Option Nat}
    (h : ¬ gone ents cur = true) :
    ∀ k, cur = some k → k ∈ ents.map (·.1) := by
  intro k hk
  subst hk
  simp only [gone, List.all_eq_true, decide_eq_true_eq] at h
  refine Classical.byContradiction fun hne => h ?_
  intro x hx he
  exact hne (by rw [← he]; exact List.mem_map_of_mem hx)

theorem next_inv {st st' : St} {id : Nat} (hi : Inv st) (h : next st id = .ok st') : Inv st' := by
  unfold next at h
  split at h
  · cases h
  · rename_i d hd
    have hdm := List.mem_of_find?_eq_some hd
    split at h
    · cases h
    · rename_i s hs
      have hsm := List.mem_of_find?_eq_some hs
      have hsn : s.name = d.name := by simpa using List.find?_some hs
      split at h
      · cases h
      · rename_i hg
        have hk := guard_false hg
        split at h
        · injection h with h; subst h; exact finish_inv hi d
        · rename_i c r ha
          injection h with h; subst h
          exact setDel_inv (lg := st.log) hi hdm hsm hsn hk ha rfl
        · rename_i c r ha
          split at h
          · injection h with h; subst h; exact finish_inv hi d
          · injection h with h; subst h
            exact setDel_inv (g := d.gc) (b := true) hi hdm hsm hsn hk ha rfl

theorem step_inv {st st' : St} {a : Act} (hi : Inv st) (h : step st a = .ok st') : Inv st' := by
  cases a with
  | subscribe m l => simp only [step] at h; injection h with h; subst h; exact subscribe_inv hi m l
  | close c => simp only [step] at h; injection h with h; subst h; exact close_inv hi c
  | begin n b => simp only [step] at h; injection h with h; subst h; exact begin_inv hi n b
  | next id => exact next_inv hi h

theorem run_inv {as : List Act} : ∀ {st st' : St}, Inv st → run st as = .ok st' → Inv st' := by
  induction as with
  | nil => intro s s' hi h; simp only [run] at h; injection h with h; subst h; exact hi
  | cons a as ih =>
    intro s s' hi h
    simp only [run] at h
    cases hs : step s a with
    | ok t => rw [hs] at h; exact ih (step_inv hi hs) h
    | stuck => rw [hs] at h; cases h
    | ub => rw [hs] at h; cases h

theorem Reachable.inv {st : St} (h : Reachable st) : Inv st := by
  obtain ⟨as, h⟩ := h; exact run_inv inv_init h

end Verif.StreamSub
