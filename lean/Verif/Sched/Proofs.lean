import Verif.Sched.Spec
import Verif.BinHeap.Proofs

namespace Verif.Sched

open Verif.BinHeap

theorem tvlt_sw : StrictWeak Tv.lt := by
  constructor
  · intro a; simp [Tv.lt]
  · intro a b c; unfold Tv.lt; grind
  · intro a b c; unfold Tv.lt; grind

theorem evlt_sw (s : Sch) : StrictWeak s.evlt :=
  ⟨fun _ => tvlt_sw.irrefl _, fun _ _ _ => tvlt_sw.trans _ _ _, fun _ _ _ => tvlt_sw.ntrans _ _ _⟩

theorem halfC : add.halfParC = halfPar := rfl

theorem tvlt_us {a b : Tv} (ha : a.Norm) (hb : b.Norm) : a.lt b = true ↔ a.us < b.us := by
  simp only [Tv.lt, Tv.us, Tv.Norm] at *
  split <;> simp <;> omega

/-- the array and the client agree -/
structure Ok (s : Sch) (live : List Nat) : Prop where
  good : Good s.heap
  mem : ∀ y, y ∈ contents s.heap ↔ y ∈ live
  nodup : live.Nodup
  out : ∀ y, y ∉ live → s.heap.idx y = -1
  cnt : s.evcount = live.length
  fits : s.heap.len ≤ s.heap.cap

theorem ok_len {s : Sch} {live : List Nat} (h : Ok s live) : s.heap.len = live.length := by
  have h1 : (contents s.heap).Perm live := by
    apply (List.perm_ext_iff_of_nodup (good_nodup h.good) h.nodup).2
    exact h.mem
  have := h1.length_eq
  simpa [contents] using this

theorem ok_idx {s : Sch} {live : List Nat} (h : Ok s live) {y : Nat} (hy : y ∈ live) :
    ∃ c, c < s.heap.len ∧ s.heap.slots c = y ∧ s.heap.idx y = c := by
  obtain ⟨c, hc, he⟩ := mem_contents.1 ((h.mem y).2 hy)
  exact ⟨c, hc, he, by rw [← he]; exact h.good.idx c hc⟩

theorem ok_idx_iff {s : Sch} {live : List Nat} (h : Ok s live) {y : Nat} :
    s.heap.idx y = -1 ↔ y ∉ live := by
  constructor
  · intro e hy
    obtain ⟨c, _, _, he⟩ := ok_idx h hy
    omega
  · exact h.out y

theorem insert_idx {par : Nat → Nat} (hpar : Decr par) {lt : Nat → Nat → Bool} {s s' : St Nat}
    (hg : Good s) {x : Nat} (hx : x ∉ contents s) (h : insert par lt s x = some s') :
    Good s' ∧ s'.len = s.len + 1 ∧ s'.cap = s.cap ∧
    (∀ y, y ∈ contents s' ↔ y = x ∨ y ∈ contents s) ∧
    (∀ y, y ≠ x → y ∉ contents s → s'.idx y = s.idx y) := by
  unfold BinHeap.insert at h
  split at h
  · cases h
  · simp only [Option.some.injEq] at h
    have hx' : ∀ i, i < s.len → s.slots i ≠ x := by
      intro i hi he; exact hx (mem_contents.2 ⟨i, hi, he⟩)
    let s1 : St Nat := { put s s.len x with len := s.len + 1 }
    have hs1 : s1.slots = upd s.slots s.len x := rfl
    have hself : s1.slots s.len = x := by rw [hs1]; exact upd_self _ _ _
    have hold : ∀ i, i ≠ s.len → s1.slots i = s.slots i := by
      intro i hi; rw [hs1]; exact upd_ne _ _ hi
    have hfill : fill s1 s.len x = s1.slots := by
      have := fill_self s1 s.len; rwa [hself] at this
    have hl1 : s1.len = s.len + 1 := rfl
    have hp : Partial s1 s.len x := by
      refine ⟨by omega, ?_, ?_⟩
      · rw [hfill]
        intro i j hi hj he
        by_cases h1 : i = s.len <;> by_cases h2 : j = s.len
        · omega
        · rw [h1, hself, hold j h2] at he; exact absurd he.symm (hx' j (by omega))
        · rw [h2, hself, hold i h1] at he; exact absurd he (hx' i (by omega))
        · rw [hold i h1, hold j h2] at he; exact hg.inj i j (by omega) (by omega) he
      · intro i hi hne
        rw [hold i hne]
        show upd s.idx x _ (s.slots i) = _
        rw [upd_ne _ _ (hx' i (by omega))]
        exact hg.idx i (by omega)
    have hsm := floatUp_same hpar (lt := lt) s.len s1 s.len x hp
    rw [show floatUp par lt s.len s1 s.len x = s' from h] at hsm
    have hmem : ∀ y, Mem s1.slots s1.len y ↔ y = x ∨ y ∈ contents s := by
      intro y
      constructor
      · rintro ⟨i, hi, he⟩
        by_cases h1 : i = s.len
        · left; rw [h1, hself] at he; exact he.symm
        · right; rw [hold i h1] at he; exact mem_contents.2 ⟨i, by omega, he⟩
      · rintro (rfl | hy)
        · exact ⟨s.len, by omega, hself⟩
        · obtain ⟨i, hi, he⟩ := mem_contents.1 hy
          exact ⟨i, by omega, by rw [hold i (by omega)]; exact he⟩
    refine ⟨hsm.good, hsm.len, hsm.cap, ?_, ?_⟩
    · intro y
      have := hsm.mem y
      rw [hfill] at this
      rw [mem_contents, hsm.len]
      exact this.trans (hmem y)
    · intro y h1 h2
      rw [hsm.idx y (by rw [hfill]; intro hc; rcases (hmem y).1 hc with hc | hc; exact h1 hc; exact h2 hc)]
      show upd s.idx x _ y = _
      exact upd_ne _ _ h1

theorem ok_create (cap : Nat) (param : Nat → Param) : Ok (create cap param) [] := by
  refine ⟨⟨?_, ?_⟩, ?_, List.nodup_nil, ?_, rfl, Nat.zero_le _⟩
  · intro i j hi; exact absurd hi (Nat.not_lt_zero _)
  · intro i hi; exact absurd hi (Nat.not_lt_zero _)
  · intro y; simp [contents, create]
  · intro y _; rfl

/-- what `add` can answer -/
theorem add_cases {s : Sch} {live : List Nat} (h : Ok s live) {ev : Nat} {now : Tv} {s' : Sch} {rc : Rc}
    (ha : add s ev now = some (s', rc)) :
    (rc = .eexist ∧ ev ∈ live ∧ s' = s) ∨
    (∃ t, nextWakeup now (s.param ev) = some t ∧ ev ∉ live ∧
      ((rc = .enomem ∧ s.heap.len = s.heap.cap ∧ s' = { s with tv := upd s.tv ev t }) ∨
       (rc = .ok ∧ s.heap.len ≠ s.heap.cap ∧ ∃ hp,
         insert halfPar ({ s with tv := upd s.tv ev t } : Sch).evlt s.heap ev = some hp ∧
         s' = { s with tv := upd s.tv ev t, heap := hp, evcount := s.evcount + 1 }))) := by
  unfold add at ha
  split at ha
  · rename_i hne
    left
    simp only [Option.some.injEq, Prod.mk.injEq] at ha
    refine ⟨ha.2.symm, ?_, ha.1.symm⟩
    apply Classical.byContradiction
    intro hl; exact hne (h.out ev hl)
  · rename_i hne
    right
    have hnl : ev ∉ live := (ok_idx_iff h).1 (by simpa using hne)
    split at ha
    · cases ha
    · rename_i t ht
      refine ⟨t, ht, hnl, ?_⟩
      simp only at ha
      split at ha
      · rename_i hi
        left
        simp only [Option.some.injEq, Prod.mk.injEq] at ha
        refine ⟨ha.2.symm, ?_, ha.1.symm⟩
        unfold BinHeap.insert at hi
        split at hi
        · assumption
        · cases hi
      · rename_i hp hi
        right
        simp only [Option.some.injEq, Prod.mk.injEq] at ha
        refine ⟨ha.2.symm, ?_, hp, hi, ha.1.symm⟩
        unfold BinHeap.insert at hi
        split at hi
        · cases hi
        · assumption

theorem ok_tv {s : Sch} {live : List Nat} (h : Ok s live) (tv : Nat → Tv) :
    Ok { s with tv := tv } live := ⟨h.good, h.mem, h.nodup, h.out, h.cnt, h.fits⟩

theorem ok_add {s : Sch} {live : List Nat} (h : Ok s live) {ev : Nat} {now : Tv} {s' : Sch}
    (ha : add s ev now = some (s', .ok)) : Ok s' (ev :: live) := by
  rcases add_cases h ha with ⟨e, _⟩ | ⟨t, _, hnl, ⟨e, _⟩ | ⟨_, hcap, hp, hi, rfl⟩⟩
  · cases e
  · cases e
  · have hx : ev ∉ contents s.heap := fun hc => hnl ((h.mem ev).1 hc)
    obtain ⟨g1, g2, g3, g4, g5⟩ := insert_idx halfPar_decr h.good hx hi
    refine ⟨g1, ?_, ?_, ?_, ?_, ?_⟩
    · intro y
      show y ∈ contents hp ↔ _
      rw [g4, h.mem]; simp
    · exact List.nodup_cons.2 ⟨hnl, h.nodup⟩
    · intro y hy
      simp only [List.mem_cons, not_or] at hy
      show hp.idx y = -1
      rw [g5 y hy.1 (fun hc => hy.2 ((h.mem y).1 hc))]
      exact h.out y hy.2
    · show s.evcount + 1 = _
      rw [h.cnt]; simp
    · show hp.len ≤ hp.cap
      have := h.fits
      omega

theorem ok_addFail {s : Sch} {live : List Nat} (h : Ok s live) {ev : Nat} {now : Tv} {s' : Sch} {rc : Rc}
    (ha : add s ev now = some (s', rc)) (hrc : rc ≠ .ok) : Ok s' live ∧ s'.heap = s.heap ∧
      (∀ y ∈ live, s'.tv y = s.tv y) := by
  rcases add_cases h ha with ⟨_, _, rfl⟩ | ⟨t, _, hnl, ⟨_, _, rfl⟩ | ⟨e, _⟩⟩
  · exact ⟨h, rfl, fun _ _ => rfl⟩
  · refine ⟨ok_tv h _, rfl, ?_⟩
    intro y hy
    show upd s.tv ev t y = _
    exact upd_ne _ _ (fun he => hnl (he ▸ hy))
  · exact absurd e hrc

theorem filter_notin {live : List Nat} {ev : Nat} (h : ev ∉ live) : live.filter (· ≠ ev) = live := by
  apply List.filter_eq_self.2
  intro a ha
  simp
  intro he
  exact h (he ▸ ha)

theorem filter_len {live : List Nat} {ev : Nat} (hn : live.Nodup) (h : ev ∈ live) :
    (live.filter (· ≠ ev)).length + 1 = live.length := by
  have h1 : (live.filter (· ≠ ev)) = live.erase ev := by
    rw [hn.erase_eq_filter]
    congr 1; funext x
    by_cases hx : x = ev <;> simp [hx]
  rw [h1, List.length_erase_of_mem h]
  have : 0 < live.length := List.length_pos_of_mem h
  omega

theorem ok_del {s : Sch} {live : List Nat} (h : Ok s live) (ev : Nat) :
    Ok (del s ev) (live.filter (· ≠ ev)) := by
  unfold del
  by_cases hl : ev ∈ live
  · obtain ⟨c, hc, he, hidx⟩ := ok_idx h hl
    have h0 : 0 ≤ s.heap.idx ev := by omega
    simp only [h0, if_true]
    have hr := removeSink_same (lt := s.evlt) h.good hc
    rw [he] at hr
    refine ⟨hr.good, ?_, h.nodup.filter _, ?_, ?_, ?_⟩
    · intro y
      show y ∈ contents (removeSink s.evlt s.heap ev) ↔ _
      rw [hr.mem, h.mem]; simp
    · intro y hy
      show (removeSink s.evlt s.heap ev).idx y = -1
      have hy' : ¬ (y ∈ live ∧ y ≠ ev) := by simpa using hy
      rw [hr.idx y (by rw [hr.mem, h.mem]; exact hy')]
      split
      · rfl
      · rename_i hne
        exact h.out y (fun hc => hy' ⟨hc, hne⟩)
    · show s.evcount - 1 = _
      have := filter_len h.nodup hl
      rw [h.cnt]; omega
    · show (removeSink s.evlt s.heap ev).len ≤ (removeSink s.evlt s.heap ev).cap
      have h1 := hr.len; have h2 := hr.cap; have h3 := h.fits
      omega
  · have : ¬ 0 ≤ s.heap.idx ev := by rw [h.out ev hl]; omega
    simp only [this, if_false, filter_notin hl]
    exact h

/-- what `process` can do -/
theorem process_fire {s : Sch} {now now2 : Tv} {ev : Nat} {s' : Sch}
    (hp : process s now now2 = some (.fire ev s')) :
    0 < s.heap.len ∧ s.heap.slots 0 = ev ∧ now.lt (s.tv ev) = false ∧
    ∃ t, nextWakeup now2 (s.param ev) = some t ∧
      s' = { s with tv := upd s.tv ev t
                    heap := update halfPar ({ s with tv := upd s.tv ev t } : Sch).evlt s.heap
                      (s.heap.idx ev).toNat } := by
  unfold process at hp
  split at hp
  · cases hp
  · rename_i e he
    unfold top at he
    split at he
    · cases he
    · rename_i hlen
      simp only [Option.some.injEq] at he
      split at hp
      · cases hp
      · rename_i hlt
        split at hp
        · cases hp
        · rename_i t ht
          simp only [Option.some.injEq, Round.fire.injEq] at hp
          obtain ⟨rfl, rfl⟩ := hp
          exact ⟨by omega, he, by simpa using hlt, t, ht, rfl⟩

theorem ok_fire {s : Sch} {live : List Nat} (h : Ok s live) {now now2 : Tv} {ev : Nat} {s' : Sch}
    (hp : process s now now2 = some (.fire ev s')) : Ok s' live := by
  obtain ⟨hl, he, _, t, _, rfl⟩ := process_fire hp
  have hidx : (s.heap.idx ev).toNat = 0 := by
    have := h.good.idx 0 hl
    rw [he] at this; omega
  rw [hidx]
  have hu := update_same halfPar_decr (lt := ({ s with tv := upd s.tv ev t } : Sch).evlt) h.good hl
  have hmem := hu.mem
  have hix := hu.idx
  rw [fill_self] at hmem hix
  refine ⟨hu.good, ?_, h.nodup, ?_, h.cnt, ?_⟩
  · intro y
    rw [mem_contents]
    show Mem (update halfPar _ s.heap 0).slots (update halfPar _ s.heap 0).len y ↔ _
    rw [hu.len, hmem, ← mem_contents, h.mem]
  · intro y hy
    show (update halfPar _ s.heap 0).idx y = -1
    rw [hix y (by rw [← mem_contents, h.mem]; exact hy)]
    exact h.out y hy
  · show (update halfPar _ s.heap 0).len ≤ (update halfPar _ s.heap 0).cap
    rw [hu.len, hu.cap]; exact h.fits

theorem reach_ok {s : Sch} {live : List Nat} (h : Reach s live) : Ok s live := by
  induction h with
  | create cap param => exact ok_create cap param
  | addOk _ ha ih => exact ok_add ih ha
  | addFail _ ha hrc ih => exact (ok_addFail ih ha hrc).1
  | del _ ih => exact ok_del ih _
  | fire _ hp ih => exact ok_fire ih hp

theorem safe_reach {s : Sch} {live : List Nat} (h : SafeReach s live) : Reach s live := by
  induction h with
  | create cap param => exact .create cap param
  | addOk _ ha ih => exact .addOk ih ha
  | addFail _ ha hrc ih => exact .addFail ih ha hrc
  | del _ _ ih => exact .del ih
  | fire _ hp ih => exact .fire ih hp

theorem ordered_congr {lt lt' : Nat → Nat → Bool} {s : St Nat} (h : Ordered halfPar lt s.slots s.len)
    (hs : ∀ a ∈ contents s, ∀ b ∈ contents s, lt' a b = lt a b) : Ordered halfPar lt' s.slots s.len := by
  intro i h0 hi
  have hp := halfPar_decr i h0
  rw [hs _ (mem_contents.2 ⟨i, hi, rfl⟩) _ (mem_contents.2 ⟨halfPar i, by omega, rfl⟩)]
  exact h i h0 hi

theorem safe_ordered {s : Sch} {live : List Nat} (h : SafeReach s live) :
    Ordered halfPar s.evlt s.heap.slots s.heap.len := by
  induction h with
  | create cap param => intro i h0 hi; exact absurd hi (Nat.not_lt_zero _)
  | addFail hr ha hrc ih =>
    have hok := reach_ok (safe_reach hr)
    obtain ⟨_, h2, h3⟩ := ok_addFail hok ha hrc
    rw [h2]
    apply ordered_congr ih
    intro a ha' b hb'
    unfold Sch.evlt
    rw [h3 a ((hok.mem a).1 ha'), h3 b ((hok.mem b).1 hb')]
  | addOk hr ha ih =>
    have hok := reach_ok (safe_reach hr)
    rename_i s live ev now s'
    rcases add_cases hok ha with ⟨e, _⟩ | ⟨t, _, hnl, ⟨e, _⟩ | ⟨_, hcap, hp, hi, rfl⟩⟩
    · cases e
    · cases e
    · have hx : ev ∉ contents s.heap := fun hc => hnl ((hok.mem ev).1 hc)
      have ho : Ordered halfPar ({ s with tv := upd s.tv ev t } : Sch).evlt s.heap.slots s.heap.len := by
        apply ordered_congr ih
        intro a ha' b hb'
        unfold Sch.evlt
        rw [show ({ s with tv := upd s.tv ev t } : Sch).tv a = s.tv a from
            upd_ne _ _ (fun he => hx (he ▸ ha')),
          show ({ s with tv := upd s.tv ev t } : Sch).tv b = s.tv b from
            upd_ne _ _ (fun he => hx (he ▸ hb'))]
      obtain ⟨s'', e1, _, e2, _⟩ := insert_ok halfPar_decr (evlt_sw _) hok.good ho hx hcap
      rw [hi] at e1
      cases e1
      exact e2
  | del hr hsafe ih =>
    have hok := reach_ok (safe_reach hr)
    rename_i s live ev
    unfold del
    by_cases hl : ev ∈ live
    · obtain ⟨c, hc, he, hidx⟩ := ok_idx hok hl
      have h0 : 0 ≤ s.heap.idx ev := by omega
      simp only [h0, if_true]
      have hr' := removeSink_same (lt := s.evlt) hok.good hc
      have ho := removeSink_ordered (evlt_sw s) hok.good ih hc (by
        intro hpos hlt
        rcases hsafe with h | h | h
        · omega
        · omega
        · rw [hidx] at h; exact h)
      rw [he] at hr' ho
      have e : (removeSink s.evlt s.heap ev).len = s.heap.len - 1 := by have := hr'.len; omega
      show Ordered halfPar s.evlt (removeSink s.evlt s.heap ev).slots (removeSink s.evlt s.heap ev).len
      rw [e]; exact ho
    · have : ¬ 0 ≤ s.heap.idx ev := by rw [hok.out ev hl]; omega
      simp only [this, if_false]
      exact ih
  | fire hr hp ih =>
    have hok := reach_ok (safe_reach hr)
    rename_i s live now now2 ev s'
    obtain ⟨hl, he, _, t, _, rfl⟩ := process_fire hp
    have hidx : (s.heap.idx ev).toNat = 0 := by
      have := hok.good.idx 0 hl
      rw [he] at this; omega
    rw [hidx]
    have := update_ok (evlt_sw s) (evlt_sw { s with tv := upd s.tv ev t }) hok.good ih hl (by
      intro a b ha hb
      rw [he] at ha hb
      unfold Sch.evlt
      rw [show ({ s with tv := upd s.tv ev t } : Sch).tv a = s.tv a from upd_ne _ _ ha,
        show ({ s with tv := upd s.tv ev t } : Sch).tv b = s.tv b from upd_ne _ _ hb])
    obtain ⟨_, g2, g3, _⟩ := this
    show Ordered halfPar _ (update halfPar _ s.heap 0).slots (update halfPar _ s.heap 0).len
    rw [g3]; exact g2

end Verif.Sched
