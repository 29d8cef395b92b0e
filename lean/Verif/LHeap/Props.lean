import Verif.LHeap.Proofs

/-! # Properties of the set heap (C04, C42) -/

namespace Verif.LHeap

open Verif.Rbt Verif.Alloc

/-- C04 (partial): in every reachable state the blocks a client holds lie behind the 8 byte signature
and their own 4 byte prefix, which starts on a grain boundary after the signature; two of them,
prefixes included, never overlap; and none reaches further than 8 bytes past the `size` bytes
reserved for the heap.  Missing: staying inside those `size` bytes, which `lheap_overrun_defect` shows
to be false. -/
theorem lheap_blocks_disjoint_partial {m : Heap} {out : List Block} (h : Reach m out) :
    (∀ b ∈ out, 12 ≤ b.1 ∧ b.1 + b.2 ≤ m.size + 8 ∧ (b.1 - 12) % m.grain = 0) ∧
    out.Pairwise (fun b c => b.1 + b.2 ≤ c.1 - 4 ∨ c.1 + c.2 ≤ b.1 - 4) := by
  obtain ⟨all, h⟩ := reach_ok h
  have hg : 0 < m.grain := Nat.two_pow_pos _
  constructor
  · intro b hb
    have hp := h.ptr b hb
    have hm := (ok_header h hb).2
    have hmem := mem_liveOf.1 (h.live.mem_iff.1 hm)
    obtain ⟨h1, h2, _⟩ := h.inv.tile.bounds _ hmem
    have h3 := tile_aligned h.inv.tile _ hmem
    have h4 := @need_ge m.grain b.2 hg
    have h5 := Nat.div_mul_le_self m.size m.grain
    simp only [Chunk.fin, Ok.params_grain] at h1 h2 h3
    have : m.grain = 2 ^ m.gbits := rfl
    rw [← this] at h2
    refine ⟨by omega, by omega, ?_⟩
    rw [Nat.sub_sub] at h3; exact h3
  · exact (ok_disjoint h).imp (fun h => by omega)

/-- C04: no call in a reachable state is undefined: `ldms_heap_alloc` of any sane size returns, and so does
`ldms_heap_free` of every block the client holds. -/
theorem lheap_calls_defined {m : Heap} {out : List Block} (h : Reach m out) :
    (∀ n, Sane m.grain n → ∃ m' r, alloc m n = some (m', r)) ∧
    (∀ b ∈ out, ∃ m', free m b.1 = some m') := by
  obtain ⟨all, h⟩ := reach_ok h
  constructor
  · intro n hn
    rcases ok_alloc h hn with ⟨e, _⟩ | ⟨A, B, p, T, all', _, _, _, _, e, _⟩
    · exact ⟨_, _, e⟩
    · exact ⟨_, _, e⟩
  · intro b hb
    obtain ⟨m', _, e, _⟩ := ok_free h hb
    exact ⟨m', e⟩

/-- Every block's address is 4 modulo 8, although list entries hold 64-bit words: the prefix is 4
bytes long and the chunks are 8 byte aligned. -/
theorem lheap_alloc_misaligned {m : Heap} {out : List Block} (h : Reach m out) :
    ∀ b ∈ out, b.1 % 8 = 4 := by
  intro b hb
  obtain ⟨h1, _, h3⟩ := (lheap_blocks_disjoint_partial h).1 b hb
  obtain ⟨all, h⟩ := reach_ok h
  have hg : 64 ≤ m.grain := h.sound.1
  have hd : (8 : Nat) ∣ m.grain := by
    have hb : 3 ≤ m.gbits := by
      apply Nat.le_of_not_lt
      intro hc
      have : m.grain ≤ 2 ^ 3 := Nat.pow_le_pow_right (by omega) (by omega)
      omega
    exact Nat.pow_dvd_pow 2 hb
  have : 8 ∣ b.1 - 12 := Nat.dvd_trans hd (Nat.dvd_of_mod_eq_zero h3)
  omega

/-! ### C04 -/

/-- C04: grains are conserved: the free grains `ldms_heap_get_info` reports and those of the blocks the client
holds always add up to the whole region. -/
theorem lheap_conservation {m : Heap} {out : List Block} (h : Reach m out) :
    (getInfo m).freeBytes + used m.grain out = m.size / m.grain := by
  obtain ⟨all, h⟩ := reach_ok h
  have h1 := (stats_fold (traverse m.trees.addr.root) ⟨m.size, m.grain, 0, 0, 0, m.size + 1⟩).2.1
  have h2 := tile_sum h.inv.tile
  have h3 := perm_sum ((ok_free_list h).map Chunk.count)
  have h4 := perm_sum ((h.outp.trans h.live).map Chunk.count)
  have h5 : ((out.map (fun b => (⟨b.1 - 4, need m.grain b.2⟩ : Chunk))).map Chunk.count).sum
      = used m.grain out := by
    unfold used; rw [List.map_map]; rfl
  simp only [getInfo, h1]
  rw [h5] at h4
  rw [Ok.params_grain, ← h3, ← h4] at h2
  have h6 : ((traverse m.trees.addr.root).map Chunk.count).sum * m.grain + used m.grain out * m.grain
      = m.size / m.grain * m.grain := by
    have : m.grain = 2 ^ m.gbits := rfl
    rw [← this] at h2; omega
  rw [← Nat.add_mul] at h6
  have := Nat.eq_of_mul_eq_mul_right (Nat.two_pow_pos m.gbits) h6
  omega

/-- C04: free chunks are always coalesced: no two free chunks touch, hence there is at most one more
free chunk than there are blocks in use. -/
theorem lheap_coalesced {m : Heap} {out : List Block} (h : Reach m out) :
    (∀ c ∈ traverse m.trees.addr.root, ∀ d ∈ traverse m.trees.addr.root,
      c.start + c.count * m.grain ≠ d.start) ∧
    (getInfo m).freeChunks ≤ out.length + 1 := by
  obtain ⟨all, h⟩ := reach_ok h
  constructor
  · intro c hc d hd heq
    have hc' := mem_freeOf.1 ((ok_free_list h).mem_iff.1 hc)
    have hd' := mem_freeOf.1 ((ok_free_list h).mem_iff.1 hd)
    obtain ⟨A, B, hAB⟩ := split_mem hc'
    have ht := h.inv.tile
    have hn := h.inv.noadj
    rw [hAB] at ht hn hd'
    obtain ⟨tA, tB, hpos, hA, hB⟩ := ht.split
    simp only at tA tB hpos hA hB
    have hlt := c.start_lt_fin m.params hpos
    have heq' : c.fin m.params = d.start := heq
    rcases List.mem_append.1 hd' with hd' | hd'
    · have := hA _ hd'
      have h2 := (tA.bounds _ hd').2.2
      have := d.start_lt_fin m.params h2
      simp only at *; omega
    · rcases List.mem_cons.1 hd' with hd' | hd'
      · cases hd'; omega
      · cases B with
        | nil => simp at hd'
        | cons b B =>
          rw [noadj_append] at hn
          obtain ⟨_, hn, _⟩ := hn
          obtain ⟨hs, hp, tB'⟩ := tB
          rcases List.mem_cons.1 hd' with hd' | hd'
          · subst hd'; exact hn.1 ⟨rfl, rfl⟩
          · have h1 := (tB'.bounds _ hd').1
            have := b.2.start_lt_fin m.params hp
            simp only at *; omega
  · have h1 := (stats_fold (traverse m.trees.addr.root) ⟨m.size, m.grain, 0, 0, 0, m.size + 1⟩).1
    have h2 := (ok_free_list h).length_eq
    have h3 := noadj_count h.inv.noadj
    have h4 := (h.outp.trans h.live).length_eq
    simp only [getInfo, h1]
    simp only [List.length_map] at h4
    split at h3 <;> omega

/-- C04: when the client has given everything back the region is one free chunk again, as after
`ldms_heap_init`, whatever the order of the frees. -/
theorem lheap_all_freed_restores {m : Heap} (h : Reach m []) :
    getInfo m = ⟨m.size, m.grain, 1, m.size / m.grain, m.size / m.grain, m.size / m.grain⟩ := by
  have hcons := lheap_conservation h
  have hcoal := (lheap_coalesced h).2
  obtain ⟨all, h⟩ := reach_ok h
  have hN : 0 < m.size / m.grain := Nat.div_pos h.sound.2.1 (Nat.two_pow_pos _)
  obtain ⟨h1, h2, _⟩ := stats_fold (traverse m.trees.addr.root) ⟨m.size, m.grain, 0, 0, 0, m.size + 1⟩
  simp only [getInfo] at *
  rw [h1] at hcoal
  rw [h2] at hcons
  simp only [used, List.map_nil, List.sum_nil, List.length_nil] at hcons hcoal
  match hl : traverse m.trees.addr.root with
  | [] => rw [hl] at hcons; simp at hcons; omega
  | [c] =>
    rw [hl] at hcons
    simp at hcons
    simp only [List.foldl_cons, List.foldl_nil, heapStat]
    rw [hcons]
    congr 1
    · omega
    · simp only [gt_iff_lt]; split <;> omega
    · have := Nat.div_le_self m.size m.grain
      split <;> omega
  | c :: d :: l => rw [hl] at hcoal; simp at hcoal

/-! ### C04 -/

/-- C04: `ldms_heap_alloc` returns NULL exactly when no free chunk is large enough (the `largest` of
`ldms_heap_get_info`), and then changes nothing. -/
theorem lheap_alloc_fails_iff {m : Heap} {out : List Block} (h : Reach m out) {n : Nat}
    (hn : Sane m.grain n) :
    (alloc m n = some (m, none) ↔ (getInfo m).largest < need m.grain n) ∧
    (∀ m', alloc m n = some (m', none) → m' = m) := by
  obtain ⟨all, h⟩ := reach_ok h
  have hl := (stats_fold (traverse m.trees.addr.root) ⟨m.size, m.grain, 0, 0, 0, m.size + 1⟩).2.2.2.2.1
    (need m.grain n)
  have hpos := @need_pos m.grain n (Nat.two_pow_pos _)
  rcases ok_alloc h hn with ⟨e, hfree⟩ | ⟨A, B, p, T, all', hall, _, hk, hmin, e, _⟩
  · refine ⟨⟨fun _ => ?_, fun _ => e⟩, fun m' e' => ?_⟩
    · apply Nat.lt_of_not_le
      intro hc
      rcases hl.1 hc with hc | ⟨c, hc, hle⟩
      · simp at hc; omega
      · have := hfree c ((ok_free_list h).mem_iff.1 hc); omega
    · rw [e] at e'; simp at e'; exact e'.symm
  · refine ⟨⟨fun e' => ?_, fun hlt => ?_⟩, fun m' e' => ?_⟩
    · rw [e] at e'; simp at e'
    · exfalso
      have : p ∈ traverse m.trees.addr.root :=
        (ok_free_list h).mem_iff.2 (by rw [hall, freeOf_append]; simp)
      have := hl.2 (.inr ⟨p, this, hk⟩)
      simp only [getInfo] at hlt; omega
    · rw [e] at e'; simp at e'

/-- C04: a successful `ldms_heap_alloc` carves the block from the front of a smallest sufficient free
chunk (best fit). -/
theorem lheap_alloc_best_fit {m m' : Heap} {out : List Block} (h : Reach m out) {n ptr : Nat}
    (hn : Sane m.grain n) (e : alloc m n = some (m', some ptr)) :
    ∃ c ∈ traverse m.trees.addr.root, ptr = c.start + 4 ∧ need m.grain n ≤ c.count ∧
      ∀ d ∈ traverse m.trees.addr.root, need m.grain n ≤ d.count → c.count ≤ d.count := by
  obtain ⟨all, h⟩ := reach_ok h
  rcases ok_alloc h hn with ⟨e', _⟩ | ⟨A, B, p, T, all', hall, _, hk, hmin, e', _⟩
  · rw [e] at e'; simp at e'
  · rw [e] at e'
    simp only [Option.some.injEq, Prod.mk.injEq] at e'
    refine ⟨p, (ok_free_list h).mem_iff.2 (by rw [hall, freeOf_append]; simp), e'.2, hk, ?_⟩
    intro d hd
    exact hmin d ((ok_free_list h).mem_iff.1 hd)

/-- C04: what was just freed can be allocated again. -/
theorem lheap_free_makes_room {m m' : Heap} {out : List Block} (h : Reach m out) {b : Block}
    (hb : b ∈ out) (e : free m b.1 = some m') {n : Nat} (hn : Sane m.grain n) (hle : n ≤ b.2) :
    ∃ m'' ptr, alloc m' n = some (m'', some ptr) := by
  obtain ⟨all, h⟩ := reach_ok h
  obtain ⟨m1, all', e', hg, hs, ⟨p, hp, hle'⟩, h', _⟩ := ok_free h hb
  rw [e] at e'; cases e'
  have hgr : m'.grain = m.grain := by unfold Heap.grain; rw [hg]
  have hn' : Sane m'.grain n := by rw [hgr]; exact hn
  have hmono : need m.grain n ≤ need m.grain b.2 := by
    unfold need; apply Nat.div_le_div_right; omega
  rcases ok_alloc h' hn' with ⟨_, hfree⟩ | ⟨A, B, q, T, all'', _, _, _, _, e'', _⟩
  · have := hfree p hp
    rw [hgr] at this; omega
  · exact ⟨_, _, e''⟩


/-- C04: the generation number clients use to notice a change moves on every successful allocation
and every free, and only then. -/
theorem lheap_gn_counts {m : Heap} {out : List Block} (h : Reach m out) :
    (∀ n m' ptr, Sane m.grain n → alloc m n = some (m', some ptr) → m'.gn = (m.gn + 1) % 2 ^ 32) ∧
    (∀ n m', Sane m.grain n → alloc m n = some (m', none) → m'.gn = m.gn) ∧
    (∀ b ∈ out, ∀ m', free m b.1 = some m' → m'.gn = (m.gn + 1) % 2 ^ 32) := by
  obtain ⟨all, h⟩ := reach_ok h
  refine ⟨?_, ?_, ?_⟩
  · intro n m' ptr hn e
    rcases ok_alloc h hn with ⟨e', _⟩ | ⟨A, B, p, T, all', _, _, _, _, e', _⟩ <;> rw [e] at e'
    · simp at e'
    · simp only [Option.some.injEq, Prod.mk.injEq] at e'; rw [e'.1]
  · intro n m' hn e
    rcases ok_alloc h hn with ⟨e', _⟩ | ⟨A, B, p, T, all', _, _, _, _, e', _⟩ <;> rw [e] at e'
    · simp only [Option.some.injEq, Prod.mk.injEq] at e'; rw [e'.1]
    · simp at e'
  · intro b hb m' e
    unfold free at e
    split at e
    · simp at e
    · split at e
      · simp at e
      · split at e
        · simp at e
        · simp only [Option.some.injEq] at e; rw [← e]

/-! ### C42 -/

/-- Histories in which every request has the same size `e`: the entries of a list of one type. -/
inductive ReachU (size grain e : Nat) : Heap → List Block → Prop where
  | init {h : Heap} :
      LHeap.init size grain = some (some h) → Sound h → ReachU size grain e h []
  | alloc {h h' : Heap} {out : List Block} {ptr : Nat} :
      ReachU size grain e h out → Sane h.grain e → alloc h e = some (h', some ptr) →
      ReachU size grain e h' ((ptr, e) :: out)
  | free {h h' : Heap} {out : List Block} {b : Block} :
      ReachU size grain e h out → b ∈ out → free h b.1 = some h' → ReachU size grain e h' (out.erase b)

theorem ReachU.reach {size grain e : Nat} {h : Heap} {out : List Block} (hr : ReachU size grain e h out) : Reach h out := by
  induction hr with
  | init a b => exact .init a b
  | alloc _ a b ih => exact .alloc ih a b
  | free _ a b ih => exact .free ih a b

theorem reachU_size {size grain e : Nat} {h : Heap} {out : List Block} (hr : ReachU size grain e h out) :
    ∀ b ∈ out, b.2 = e := by
  induction hr with
  | init => intro b hb; simp at hb
  | alloc _ _ _ ih =>
    intro b hb
    rcases List.mem_cons.1 hb with rfl | hb
    · rfl
    · exact ih b hb
  | free _ _ _ ih => intro b hb; exact ih b (List.mem_of_mem_erase hb)

/-- in such a history every chunk starts at a multiple of the entry's size -/
theorem reachU_ok {size grain e : Nat} {h : Heap} {out : List Block} (hr : ReachU size grain e h out) :
    ∃ all, Ok h out all ∧ ∀ c ∈ all, (c.2.start - 8) % (need h.grain e * h.grain) = 0 := by
  induction hr with
  | init a b =>
    obtain ⟨all, h1, h2⟩ := ok_init a b
    exact ⟨all, h1, by simp [h2]⟩
  | @alloc h h' out ptr _ hn e' ih =>
    obtain ⟨all, h1, h2⟩ := ih
    rcases ok_alloc h1 hn with ⟨e'', _⟩ | ⟨A, B, p, T, all', hall, hall', _, _, e'', h3⟩
    · rw [e'] at e''; simp at e''
    · rw [e'] at e''
      simp only [Option.some.injEq, Prod.mk.injEq] at e''
      obtain ⟨rfl, rfl⟩ := e''
      refine ⟨all', h3, ?_⟩
      have hp := h2 (true, p) (by simp [hall])
      have hp8 := (h1.inv.tile.bounds (true, p) (by simp [hall])).1
      simp only at hp hp8
      intro c hc
      show (c.2.start - 8) % (need h.grain e * h.grain) = 0
      rw [hall'] at hc
      simp only [List.mem_append, List.mem_cons] at hc
      rcases hc with (hc | rfl | hc) | hc
      · exact h2 c (by simp [hall, hc])
      · exact hp
      · split at hc
        · simp at hc
        · simp only [List.mem_singleton] at hc
          subst hc
          simp only
          rw [show p.start + need h.grain e * h.grain - 8 = p.start - 8 + need h.grain e * h.grain by omega,
            Nat.add_mod_right]
          exact hp
      · exact h2 c (by simp [hall, hc])
  | @free h h' out b _ hb e' ih =>
    obtain ⟨all, h1, h2⟩ := ih
    obtain ⟨m', all', e'', hg, _, _, h3, A, A', p, p', B, B', hall, hall', hAA, hBB⟩ := ok_free h1 hb
    rw [e'] at e''
    cases e''
    refine ⟨all', h3, ?_⟩
    have hgr : h'.grain = h.grain := by unfold Heap.grain; rw [hg]
    rw [hgr]
    have ht := h1.inv.tile
    have ht' := h3.inv.tile
    have hpar : h'.params.gbits = h.params.gbits := hg
    have conv : ∀ {cs : List Cell} {a b : Nat}, Tile h'.params a cs b → Tile h.params a cs b := by
      intro cs
      induction cs with
      | nil => intro a b h; exact h
      | cons c cs ih =>
        intro a b ht0
        refine ⟨ht0.1, ht0.2.1, ?_⟩
        have : Chunk.fin h'.params c.2 = Chunk.fin h.params c.2 := by unfold Chunk.fin; rw [hpar]
        rw [← this]; exact ih ht0.2.2
    have ht'' := conv ht'
    rw [hall] at ht
    rw [hall'] at ht''
    have tA := ht.split.1
    have tA' := ht''.split.1
    simp only at tA tA'
    intro c hc
    rw [hall'] at hc
    rcases List.mem_append.1 hc with hc | hc
    · apply h2 c
      rw [hall]
      rcases hAA with rfl | ⟨q, rfl⟩ <;> simp [hc]
    · rcases List.mem_cons.1 hc with rfl | hc
      · simp only
        rcases hAA with rfl | ⟨q, rfl⟩
        · have := tile_fin_unique tA tA'
          rw [← this]
          exact h2 (false, p) (by simp [hall])
        · have := tile_fin_unique tA.split.1 tA'
          simp only at this
          rw [← this]
          exact h2 (true, q) (by simp [hall])
      · apply h2 c
        rw [hall]
        rcases hBB with rfl | ⟨q, rfl⟩ <;> simp [hc]

theorem grainBits_spec {n : Nat} : ∀ (fuel b r : Nat), grainBits n fuel b = some r → b ≤ r ∧ n ≤ 2 ^ r ∧
    (b = r ∨ 2 ^ (r - 1) < n) := by
  intro fuel
  induction fuel with
  | zero => intro b r h; simp [grainBits] at h
  | succ fuel ih =>
    intro b r h
    unfold grainBits at h
    split at h
    · rename_i hlt
      obtain ⟨h1, h2, h3⟩ := ih _ _ h
      refine ⟨by omega, h2, .inr ?_⟩
      rcases h3 with rfl | h3
      · simpa using hlt
      · exact h3
    · simp at h; subst h; exact ⟨Nat.le_refl _, by omega, .inl rfl⟩

/-- what `ldms_heap_init` fixes for the life of the heap -/
theorem reachU_size_grain {size grain e : Nat} {h : Heap} {out : List Block}
    (hr : ReachU size grain e h out) :
    h.size = roundUp size minSize ∧ grainBits (grainSize grain) 24 0 = some h.gbits := by
  induction hr with
  | init a _ =>
    unfold LHeap.init at a
    split at a
    · simp at a
    · simp only at a
      split at a
      · simp at a
      · rename_i bits hb
        split at a
        · simp at a
        · simp only [Option.some.injEq] at a; subst a; exact ⟨rfl, hb⟩
  | alloc hr' hn e' ih =>
    obtain ⟨all, h1⟩ := reach_ok hr'.reach
    rcases ok_alloc h1 hn with ⟨e'', _⟩ | ⟨A, B, p, T, all', _, _, _, _, e'', _⟩ <;> rw [e'] at e''
    · simp at e''
    · simp only [Option.some.injEq, Prod.mk.injEq] at e''; rw [e''.1]; exact ih
  | free hr' hb e' ih =>
    obtain ⟨all, h1⟩ := reach_ok hr'.reach
    obtain ⟨m', all', e'', hg, hs, _⟩ := ok_free h1 hb
    rw [e'] at e''; cases e''
    rw [hg, hs]; exact ih

/-- C42: a heap sized for `k` entries of one size (`k` times `ldms_heap_alloc_size`, as
`ldms_list_heap_size_get` computes it) always has room for `k` of them, whatever entries were added
and removed before and in which order. -/
theorem lheap_sized_for_k_holds_k {size grain e k : Nat} {h : Heap} {out : List Block} (hr : ReachU size grain e h out)
    (hn : Sane h.grain e) (hsize : k * (need h.grain e * h.grain) ≤ h.size) (hk : out.length < k) :
    ∃ h' ptr, alloc h e = some (h', some ptr) := by
  have hsz := reachU_size hr
  have hcons := lheap_conservation hr.reach
  obtain ⟨all, h1, h2⟩ := reachU_ok hr
  rcases ok_alloc h1 hn with ⟨_, hfree⟩ | ⟨A, B, p, T, all', _, _, _, _, e', _⟩
  · exfalso
    have hg : 0 < h.grain := Nat.two_pow_pos _
    have hu := @need_pos h.grain e hg
    have hused : used h.grain out = out.length * need h.grain e := by
      unfold used
      have : out.map (fun b => need h.grain b.2) = out.map (fun _ => need h.grain e) := by
        apply List.map_congr_left; intro b hb; rw [hsz b hb]
      rw [this, List.map_const', List.sum_replicate_nat]
    have hN : k * need h.grain e ≤ h.size / h.grain := by
      rw [Nat.le_div_iff_mul_le hg, Nat.mul_assoc]; exact hsize
    have hle : (out.length + 1) * need h.grain e ≤ k * need h.grain e :=
      Nat.mul_le_mul_right _ hk
    rw [Nat.add_mul, Nat.one_mul] at hle
    have hinfo : (getInfo h).freeBytes = ((freeOf all).map Chunk.count).sum := by
      have := (stats_fold (traverse h.trees.addr.root) ⟨h.size, h.grain, 0, 0, 0, h.size + 1⟩).2.1
      have h3 := perm_sum ((ok_free_list h1).map Chunk.count)
      simp only [getInfo, this]; omega
    have hlt := tile_uniform (u := need h.grain e * h.grain) h1.inv.tile h2 (by
      intro c hc
      exact Nat.mul_lt_mul_of_pos_right (hfree c hc) hg)
    rcases hlt with hlt | hnil
    · have hlt' := Nat.lt_of_mul_lt_mul_right (a := h.grain) hlt
      omega
    · rw [hnil] at hinfo; simp at hinfo; omega
  · exact ⟨_, _, e'⟩

/-- C42: a set heap created with the size `ldms_list_heap_size_get` returns for `k` entries has room
for `k` entries of that size, whatever was added and removed before. -/
theorem list_heap_holds_k {e k : Nat} {h : Heap} {out : List Block}
    (hr : ReachU (listHeapSize k e) 32 e h out) (he : e + 128 ≤ 2 ^ 37)
    (hov : k * (e + 128) + 512 ≤ 2 ^ 64) (hk : out.length < k) :
    ∃ h' ptr, alloc h e = some (h', some ptr) := by
  obtain ⟨hsz, hgb⟩ := reachU_size_grain hr
  have hg6 : h.gbits = 6 := by
    have : grainBits (grainSize 32) 24 0 = some 6 := by decide
    rw [this] at hgb; simpa using hgb.symm
  have hg : h.grain = 64 := by unfold Heap.grain; rw [hg6]
  have hsane : Sane h.grain e := by
    rw [hg]; unfold Sane need; omega
  refine lheap_sized_for_k_holds_k hr hsane ?_ hk
  rw [hg, hsz]
  have e1 : allocSize listGrain e = need 64 e * 64 := by
    have hgs : grainSize listGrain = 64 := by decide
    have e : (if (e + allocHdr) % 2 ^ 64 < freeHdr then freeHdr else (e + allocHdr) % 2 ^ 64)
        = max (e + 4) 64 := by
      unfold allocHdr freeHdr
      rw [Nat.mod_eq_of_lt (by omega : e + 4 < 2 ^ 64)]
      split <;> omega
    unfold allocSize need
    simp only [e, hgs]
    rw [roundUp_eq (by omega)]
  have hb : need 64 e * 64 ≤ e + 128 := by unfold need; omega
  have hkb : k * (need 64 e * 64) ≤ k * (e + 128) := Nat.mul_le_mul_left _ hb
  have e2 : listHeapSize k e = k * (need 64 e * 64) := by
    unfold listHeapSize; rw [e1]; exact Nat.mod_eq_of_lt (by omega)
  rw [e2, roundUp_eq (by unfold minSize; omega)]
  unfold minSize
  omega

/-! ### Concrete histories and the defect -/

def demo (size grain : Nat) : Heap :=
  ((LHeap.init size grain).getD none).getD ⟨0, 0, 0, ⟨Rbt.init, Rbt.init⟩, []⟩

theorem get_some {α : Type} {o : Option α} (d : α) (h : o.isSome = true) : o = some (o.getD d) := by
  cases o <;> simp at *

theorem demo_init : LHeap.init 600 32 = some (some (demo 600 32)) := by rfl
theorem demo_sound : Sound (demo 600 32) := by
  refine ⟨?_, ?_, ?_⟩ <;> decide +kernel

/-- states after `ldms_heap_alloc(40)`, `ldms_heap_alloc(100)` and freeing the first block -/
def h1 : Heap := ((alloc (demo 600 32) 40).getD (demo 0 0, none)).1
def h2 : Heap := ((alloc h1 100).getD (demo 0 0, none)).1
def h3 : Heap := (free h2 12).getD (demo 0 0)

theorem sane_demo {n : Nat} (hn : n ≤ 2000) : Sane 64 n := by
  unfold Sane need; omega

theorem reach_h1 : Reach h1 [(12, 40)] :=
  .alloc (.init demo_init demo_sound) (sane_demo (by omega)) (by rfl)
theorem reach_h2 : Reach h2 [(76, 100), (12, 40)] :=
  .alloc reach_h1 (sane_demo (by omega)) (by rfl)
theorem reach_h3 : Reach h3 [(76, 100)] :=
  .free (b := (12, 40)) reach_h2 (by simp) (get_some _ (by decide +kernel))

/-- a reachable state with one block between two free chunks -/
example : Reach h3 [(76, 100)] ∧ getInfo h3 = ⟨1024, 64, 2, 14, 13, 1⟩ ∧ h3.gn = 3 ∧
    (alloc h3 1000).map (·.2) = some none ∧ (alloc h3 60).map (·.2) = some (some 12) :=
  ⟨reach_h3, by decide +kernel, by decide +kernel, by decide +kernel, by decide +kernel⟩

/-- a heap sized for five entries of 100 bytes, with two of them in use -/
def g0 : Heap := demo (listHeapSize 5 100) 32
def g1 : Heap := ((alloc g0 100).getD (g0, none)).1
def g2 : Heap := ((alloc g1 100).getD (g0, none)).1

example : ReachU (listHeapSize 5 100) 32 100 g2 [(140, 100), (12, 100)] :=
  .alloc (h := g1) (.alloc (h := g0) (.init (by rfl) (by refine ⟨?_, ?_, ?_⟩ <;> decide +kernel))
    (sane_demo (n := 100) (by omega)) (by rfl)) (sane_demo (n := 100) (by omega)) (by rfl)

/-- The in-bounds half of C04 is false: `ldms_heap_init` puts `size / grain` grains behind the 8 byte
signature (ldms_heap.c:193-209), so in a heap of 512 bytes a 508 byte block starting at 12 is granted.
Its last 8 bytes lie past offset 512, where the next copy of the data section (or another block of
the set memory) begins. -/
theorem lheap_overrun_defect :
    ∃ h out, Reach h out ∧ h.size = 512 ∧ ∃ b ∈ out, h.size < b.1 + b.2 := by
  refine ⟨((alloc (demo 512 32) 508).getD (demo 0 0, none)).1, [(12, 508)], ?_, ?_, ?_⟩
  · exact .alloc (.init (size := 512) (grain := 32) (h := demo 512 32) (by rfl)
      (by refine ⟨?_, ?_, ?_⟩ <;> decide +kernel)) (sane_demo (by omega)) (by rfl)
  · decide +kernel
  · exact ⟨_, List.mem_cons_self .., by decide +kernel⟩

end Verif.LHeap
