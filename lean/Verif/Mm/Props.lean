import Verif.Mm.Proofs

/-!
# Properties of the memory region (C01, C02, C03, C41)

`Reach m out` (Spec.lean) ranges over every history of `mm_init`, `mm_alloc`, `mm_free` calls.
-/

namespace Verif.Mm

open Verif.Rbt Verif.Alloc

/-! ### C01 -/

/-- C01: in every reachable state the blocks a client holds lie inside the region, behind a 96 byte
header that starts on a grain boundary, and two of them, headers included, never overlap. -/
theorem mm_blocks_disjoint {m : Pool} {out : List Block} (h : Reach m out) :
    (∀ b ∈ out, 96 ≤ b.1 ∧ b.1 + b.2 ≤ m.size ∧ (b.1 - 96) % m.grain = 0) ∧
    out.Pairwise (fun b c => b.1 + b.2 ≤ c.1 - 96 ∨ c.1 + c.2 ≤ b.1 - 96) := by
  obtain ⟨all, h⟩ := reach_ok h
  have hg : 0 < m.grain := Nat.two_pow_pos _
  constructor
  · intro b hb
    have hp := h.ptr b hb
    have hm := (ok_header h hb).2
    have hmem := mem_liveOf.1 (h.live.mem_iff.1 hm)
    obtain ⟨_, h2, _⟩ := h.inv.tile.bounds _ hmem
    have h3 := tile_aligned h.inv.tile _ hmem
    have h4 := @need_ge m.grain b.2 hg
    have h5 := Nat.div_mul_le_self m.size m.grain
    simp only [Chunk.fin, Ok.params_grain] at h2
    have : m.grain = 2 ^ m.gbits := rfl
    rw [← this] at h2
    refine ⟨hp, by omega, ?_⟩
    simp at h3; exact h3
  · exact (ok_disjoint h).imp (fun h => by omega)

/-- C01: no call in a reachable state is undefined: `mm_alloc` of any sane size returns, and so does
`mm_free` of every block the client holds. -/
theorem mm_calls_defined {m : Pool} {out : List Block} (h : Reach m out) :
    (∀ n, Sane m.grain n → ∃ m' r, mmAlloc m n = some (m', r)) ∧
    (∀ b ∈ out, ∃ m', mmFree m b.1 = some m') := by
  obtain ⟨all, h⟩ := reach_ok h
  constructor
  · intro n hn
    rcases ok_alloc h hn with ⟨e, _⟩ | ⟨A, B, p, T, all', _, _, _, e, _⟩
    · exact ⟨_, _, e⟩
    · exact ⟨_, _, e⟩
  · intro b hb
    obtain ⟨m', _, e, _⟩ := ok_free h hb
    exact ⟨m', e⟩

/-- The header comment of `mm_alloc` promises memory "aligned on the grain boundary".  The pointer
is always 96 bytes past one, so with LDMS's grain it is never aligned. -/
theorem mm_alloc_never_grain_aligned {m : Pool} {out : List Block} (h : Reach m out)
    (hg : 96 < m.grain) : ∀ b ∈ out, b.1 % m.grain = 96 := by
  intro b hb
  obtain ⟨h1, _, h3⟩ := (mm_blocks_disjoint h).1 b hb
  have e : b.1 = 96 + m.grain * ((b.1 - 96) / m.grain) := by
    have := Nat.div_add_mod (b.1 - 96) m.grain
    omega
  rw [e, Nat.add_mul_mod_self_left, Nat.mod_eq_of_lt hg]

/-! ### C02 -/

/-- C02: grains are conserved: the free grains `mm_stats` reports and those of the blocks the client
holds always add up to the whole region. -/
theorem mm_conservation {m : Pool} {out : List Block} (h : Reach m out) :
    (mmStats m).bytes + used m.grain out = m.size / m.grain := by
  obtain ⟨all, h⟩ := reach_ok h
  have h1 := (stats_fold (traverse m.trees.addr.root) ⟨m.size, m.grain, 0, 0, 0, m.size + 1⟩).2.1
  have h2 := tile_sum h.inv.tile
  have h3 := perm_sum ((ok_free_list h).map Chunk.count)
  have h4 := perm_sum ((h.outp.trans h.live).map Chunk.count)
  have h5 : ((out.map (fun b => (⟨b.1 - 96, need m.grain b.2⟩ : Chunk))).map Chunk.count).sum
      = used m.grain out := by
    unfold used; rw [List.map_map]; rfl
  simp only [mmStats, h1]
  rw [h5] at h4
  rw [Ok.params_grain, ← h3, ← h4] at h2
  have h6 : ((traverse m.trees.addr.root).map Chunk.count).sum * m.grain + used m.grain out * m.grain
      = m.size / m.grain * m.grain := by
    have : m.grain = 2 ^ m.gbits := rfl
    rw [← this] at h2; omega
  rw [← Nat.add_mul] at h6
  have := Nat.eq_of_mul_eq_mul_right (Nat.two_pow_pos m.gbits) h6
  omega

/-- C02: free chunks are always coalesced: no two free chunks touch, hence there is at most one more
free chunk than there are blocks in use. -/
theorem mm_coalesced {m : Pool} {out : List Block} (h : Reach m out) :
    (∀ c ∈ traverse m.trees.addr.root, ∀ d ∈ traverse m.trees.addr.root,
      c.start + c.count * m.grain ≠ d.start) ∧
    (mmStats m).chunks ≤ out.length + 1 := by
  obtain ⟨all, h⟩ := reach_ok h
  constructor
  · intro c hc d hd heq
    have hc' := mem_freeOf.1 ((ok_free_list h).mem_iff.1 hc)
    have hd' := mem_freeOf.1 ((ok_free_list h).mem_iff.1 hd)
    obtain ⟨A, B, hAB⟩ := split_mem hc'
    have ht := h.inv.tile
    have hn := h.inv.noadj
    rw [hAB] at ht hn hd'
    obtain ⟨tA, tB, hpos, hA, hB⟩ := ht.split
    simp only at tA tB hpos hA hB
    have hlt := c.start_lt_fin m.params hpos
    have heq' : c.fin m.params = d.start := heq
    rcases List.mem_append.1 hd' with hd' | hd'
    · have := hA _ hd'
      have h2 := (tA.bounds _ hd').2.2
      have := d.start_lt_fin m.params h2
      simp only at *; omega
    · rcases List.mem_cons.1 hd' with hd' | hd'
      · cases hd'; omega
      · cases B with
        | nil => simp at hd'
        | cons b B =>
          rw [noadj_append] at hn
          obtain ⟨_, hn, _⟩ := hn
          obtain ⟨hs, hp, tB'⟩ := tB
          rcases List.mem_cons.1 hd' with hd' | hd'
          · subst hd'; exact hn.1 ⟨rfl, rfl⟩
          · have h1 := (tB'.bounds _ hd').1
            have := b.2.start_lt_fin m.params hp
            simp only at *; omega
  · have h1 := (stats_fold (traverse m.trees.addr.root) ⟨m.size, m.grain, 0, 0, 0, m.size + 1⟩).1
    have h2 := (ok_free_list h).length_eq
    have h3 := noadj_count h.inv.noadj
    have h4 := (h.outp.trans h.live).length_eq
    simp only [mmStats, h1]
    simp only [List.length_map] at h4
    split at h3 <;> omega

/-- C02: when the client has given everything back the region is one free chunk again, as after
`mm_init`, whatever the order of the frees. -/
theorem mm_all_freed_restores {m : Pool} (h : Reach m []) :
    mmStats m = ⟨m.size, m.grain, 1, m.size / m.grain, m.size / m.grain, m.size / m.grain⟩ := by
  have hcons := mm_conservation h
  have hcoal := (mm_coalesced h).2
  obtain ⟨all, h⟩ := reach_ok h
  have hN : 0 < m.size / m.grain := Nat.div_pos h.sound.2.1 (Nat.two_pow_pos _)
  obtain ⟨h1, h2, _⟩ := stats_fold (traverse m.trees.addr.root) ⟨m.size, m.grain, 0, 0, 0, m.size + 1⟩
  simp only [mmStats] at *
  rw [h1] at hcoal
  rw [h2] at hcons
  simp only [used, List.map_nil, List.sum_nil, List.length_nil] at hcons hcoal
  match hl : traverse m.trees.addr.root with
  | [] => rw [hl] at hcons; simp at hcons; omega
  | [c] =>
    rw [hl] at hcons
    simp at hcons
    simp only [List.foldl_cons, List.foldl_nil, heapStat]
    rw [hcons]
    congr 1
    · omega
    · simp only [gt_iff_lt]; split <;> omega
    · have := Nat.div_le_self m.size m.grain
      split <;> omega
  | c :: d :: l => rw [hl] at hcoal; simp at hcoal

/-! ### C03 -/

/-- C03: `mm_alloc` returns NULL exactly when no free chunk is large enough (the `largest` of
`mm_stats`), and then changes nothing. -/
theorem mm_alloc_fails_iff {m : Pool} {out : List Block} (h : Reach m out) {n : Nat}
    (hn : Sane m.grain n) :
    (mmAlloc m n = some (m, none) ↔ (mmStats m).largest < need m.grain n) ∧
    (∀ m', mmAlloc m n = some (m', none) → m' = m) := by
  obtain ⟨all, h⟩ := reach_ok h
  have hl := (stats_fold (traverse m.trees.addr.root) ⟨m.size, m.grain, 0, 0, 0, m.size + 1⟩).2.2.2.2.1
    (need m.grain n)
  have hpos := @need_pos m.grain n (Nat.two_pow_pos _)
  rcases ok_alloc h hn with ⟨e, hfree⟩ | ⟨A, B, p, T, all', hall, hk, hmin, e, _⟩
  · refine ⟨⟨fun _ => ?_, fun _ => e⟩, fun m' e' => ?_⟩
    · apply Nat.lt_of_not_le
      intro hc
      rcases hl.1 hc with hc | ⟨c, hc, hle⟩
      · simp at hc; omega
      · have := hfree c ((ok_free_list h).mem_iff.1 hc); omega
    · rw [e] at e'; simp at e'; exact e'.symm
  · refine ⟨⟨fun e' => ?_, fun hlt => ?_⟩, fun m' e' => ?_⟩
    · rw [e] at e'; simp at e'
    · exfalso
      have : p ∈ traverse m.trees.addr.root :=
        (ok_free_list h).mem_iff.2 (by rw [hall, freeOf_append]; simp)
      have := hl.2 (.inr ⟨p, this, hk⟩)
      simp only [mmStats] at hlt; omega
    · rw [e] at e'; simp at e'

/-- C03: a successful `mm_alloc` carves the block from the front of a smallest sufficient free
chunk (best fit). -/
theorem mm_alloc_best_fit {m m' : Pool} {out : List Block} (h : Reach m out) {n ptr : Nat}
    (hn : Sane m.grain n) (e : mmAlloc m n = some (m', some ptr)) :
    ∃ c ∈ traverse m.trees.addr.root, ptr = c.start + 96 ∧ need m.grain n ≤ c.count ∧
      ∀ d ∈ traverse m.trees.addr.root, need m.grain n ≤ d.count → c.count ≤ d.count := by
  obtain ⟨all, h⟩ := reach_ok h
  rcases ok_alloc h hn with ⟨e', _⟩ | ⟨A, B, p, T, all', hall, hk, hmin, e', _⟩
  · rw [e] at e'; simp at e'
  · rw [e] at e'
    simp only [Option.some.injEq, Prod.mk.injEq] at e'
    refine ⟨p, (ok_free_list h).mem_iff.2 (by rw [hall, freeOf_append]; simp), e'.2, hk, ?_⟩
    intro d hd
    exact hmin d ((ok_free_list h).mem_iff.1 hd)

/-- C03: what was just freed can be allocated again. -/
theorem mm_free_makes_room {m m' : Pool} {out : List Block} (h : Reach m out) {b : Block}
    (hb : b ∈ out) (e : mmFree m b.1 = some m') {n : Nat} (hn : Sane m.grain n) (hle : n ≤ b.2) :
    ∃ m'' ptr, mmAlloc m' n = some (m'', some ptr) := by
  obtain ⟨all, h⟩ := reach_ok h
  obtain ⟨m1, all', e', hg, hs, ⟨p, hp, hle'⟩, h'⟩ := ok_free h hb
  rw [e] at e'; cases e'
  have hgr : m'.grain = m.grain := by unfold Pool.grain; rw [hg]
  have hn' : Sane m'.grain n := by rw [hgr]; exact hn
  have hmono : need m.grain n ≤ need m.grain b.2 := by
    unfold need; apply Nat.div_le_div_right; omega
  rcases ok_alloc h' hn' with ⟨_, hfree⟩ | ⟨A, B, q, T, all'', _, _, _, e'', _⟩
  · have := hfree p hp
    rw [hgr] at this; omega
  · exact ⟨_, _, e''⟩

/-! ### Concrete histories -/

/-- the region `mm_init(size, grain)` makes -/
def demo (size grain : Nat) : Pool :=
  ((mmInit size grain).getD none).getD ⟨0, 0, ⟨Rbt.init, Rbt.init⟩, []⟩

theorem demo_init : mmInit 8192 1024 = some (some (demo 8192 1024)) := by rfl

theorem demo_sound : Sound (demo 8192 1024) := by
  refine ⟨?_, ?_, ?_⟩ <;> decide +kernel


theorem sane_demo {m : Pool} (hm : m.grain = 1024) {n : Nat} (hn : n ≤ 8192) : Sane m.grain n := by
  rw [hm]
  refine ⟨?_, by omega⟩
  unfold need
  have : (n + 96 + (1024 - 1)) / 1024 ≤ (8192 + 96 + (1024 - 1)) / 1024 :=
    Nat.div_le_div_right (by omega)
  omega

/-- the states after `mm_alloc(100)`, `mm_alloc(1500)`, `mm_alloc(928)`, `mm_free` of the second -/
def m1 : Pool := ((mmAlloc (demo 8192 1024) 100).getD (demo 0 0, none)).1
def m2 : Pool := ((mmAlloc m1 1500).getD (demo 0 0, none)).1
def m3 : Pool := ((mmAlloc m2 928).getD (demo 0 0, none)).1
def m4 : Pool := (mmFree m3 1120).getD (demo 0 0)

theorem get_some {α : Type} {o : Option α} (d : α) (h : o.isSome = true) : o = some (o.getD d) := by
  cases o <;> simp at *

theorem reach_m1 : Reach m1 [(96, 100)] :=
  .alloc (.init demo_init demo_sound) (sane_demo rfl (by omega)) (by rfl)
theorem reach_m2 : Reach m2 [(1120, 1500), (96, 100)] :=
  .alloc reach_m1 (sane_demo rfl (by omega)) (by rfl)
theorem reach_m3 : Reach m3 [(3168, 928), (1120, 1500), (96, 100)] :=
  .alloc reach_m2 (sane_demo rfl (by omega)) (by rfl)
theorem reach_m4 : Reach m4 [(3168, 928), (96, 100)] :=
  .free (b := (1120, 1500)) reach_m3 (by simp) (get_some _ (by decide +kernel))

/-- the hypotheses of C01-C03 hold in a state with two blocks and two free chunks -/
example : Reach m4 [(3168, 928), (96, 100)] ∧
    mmStats m4 = ⟨8192, 1024, 2, 6, 4, 2⟩ ∧ used 1024 [(3168, 928), (96, 100)] = 2 :=
  ⟨reach_m4, by decide +kernel, by decide⟩

/-- a request that fails and one that succeeds in that state -/
example : Sane m4.grain 4096 ∧ (mmAlloc m4 4096).map (·.2) = some none ∧
    Sane m4.grain 1952 ∧ (mmAlloc m4 1952).map (·.2) = some (some 1120) :=
  ⟨sane_demo (by decide +kernel) (by omega), by decide +kernel, sane_demo (by decide +kernel) (by omega),
    by decide +kernel⟩

/-- everything freed again -/
example : ∃ m, Reach m [] ∧ (mmStats m).chunks = 1 :=
  ⟨_, .free (b := (96, 100)) reach_m1 (by simp)
    (m' := (mmFree m1 96).getD (demo 0 0)) (by rfl), by decide +kernel⟩

/-! ### Where the code departs from the properties -/

/-- C01 without the `Sane` hypothesis is false: `size + sizeof(struct mm_prefix)` wraps in
`mm_alloc` (mmalloc.c:177), so a request of nearly 2^64 bytes succeeds in an 8 KiB region. -/
theorem mm_alloc_overflow_defect :
    ∃ m ptr, Reach m [] ∧ (mmAlloc m (2 ^ 64 - 50)).map (·.2) = some (some ptr) ∧
      m.size < ptr + (2 ^ 64 - 50) :=
  ⟨demo 8192 1024, 96, .init demo_init demo_sound, by decide +kernel, by decide +kernel⟩

/-- C03 without the `Sane` hypothesis is false: `compare_count` truncates to 32 bits
(mmalloc.c:88), so a request of 2^32 + 8 grains "fits" a chunk of 8, and the header of the
"remainder" is written outside the region. -/
theorem mm_alloc_truncation_defect :
    ∃ m, Reach m [] ∧ (mmAlloc m ((2 ^ 32 + 7) * 1024)).isNone ∧ (mmStats m).largest = 8 :=
  ⟨demo 8192 1024, .init demo_init demo_sound, by decide +kernel, by decide +kernel⟩

/-- C01 needs a grain of at least 96: with the 64 byte grain of the unit tests an allocation that
leaves one grain writes that grain's header past the end of the mapping. -/
theorem mm_alloc_small_grain_defect :
    (mmInit 4096 64).isSome ∧ (demo 4096 64).size = 4096 ∧ (mmStats (demo 4096 64)).largest = 64 ∧
      (mmAlloc (demo 4096 64) (63 * 64 - 96)).isNone := by
  refine ⟨?_, ?_, ?_, ?_⟩ <;> decide +kernel

/-- C41 is false: `mm_realloc` forgets the header when it computes the new size (mmalloc.c:385), so
the "resized" buffer of 2048 bytes at 96 ends at 2144 while the next `mm_alloc` is given the block
whose header starts at 2048. -/
theorem mm_realloc_overlap_defect :
    ∃ m m' , Reach m [(96, 100)] ∧ mmRealloc m 96 2048 = .ret m' 96 ∧
      (mmAlloc m' 928).map (·.2) = some (some 2144) ∧ 2144 - 96 < 96 + 2048 :=
  ⟨m1, (match mmRealloc m1 96 2048 with | .ret m _ => m | _ => m1), reach_m1, by rfl,
    by decide +kernel, by omega⟩

/-- C41 is false: when the block cannot grow in place `mm_realloc` never returns (it calls
`mm_alloc` with the lock held). -/
theorem mm_realloc_hangs_defect :
    ∃ m, Reach m [(1120, 1500), (96, 100)] ∧ mmRealloc m 96 2048 = .hang :=
  ⟨m2, reach_m2, by rfl⟩

end Verif.Mm
