import Verif.LHeap.Spec
import Verif.Alloc.Proofs

namespace Verif.LHeap

open Verif.Rbt Verif.Alloc

theorem cmpSize_agrees {M : Nat} : AgreesBelow cmpSize M := by
  intro a b _ _
  unfold cmpSize
  constructor <;> (split; omega; split <;> omega)

/-- The invariant of reachable states. -/
structure Ok (m : Heap) (out : List Block) (all : List Cell) : Prop where
  sound : Sound m
  szlt : m.size < 2 ^ 64
  inv : Inv m.params 8 (8 + m.size / m.grain * 2 ^ m.gbits) (2 ^ 32) m.trees all
  live : m.live.Perm (liveOf all)
  outp : (out.map (fun b => (⟨b.1 - 4, need m.grain b.2⟩ : Chunk))).Perm m.live
  ptr : ∀ b ∈ out, 4 ≤ b.1

theorem roundUp_eq {s r : Nat} (h : s + (r - 1) < 2 ^ 64) : roundUp s r = (s + (r - 1)) / r * r := by
  unfold roundUp; rw [Nat.mod_eq_of_lt h]

theorem allocCount_eq {m : Heap} {n : Nat} (h0 : 64 ≤ m.grain) (h : Sane m.grain n) :
    allocSize m.grain n / m.grain = need m.grain n := by
  have hg : 0 < m.grain := Nat.two_pow_pos _
  obtain ⟨_, h2⟩ := h
  have hgs : grainSize m.grain = m.grain := by unfold grainSize freeHdr; split <;> omega
  have e : (if (n + allocHdr) % 2 ^ 64 < freeHdr then freeHdr else (n + allocHdr) % 2 ^ 64)
      = max (n + 4) 64 := by
    unfold allocHdr freeHdr
    rw [Nat.mod_eq_of_lt (by omega : n + 4 < 2 ^ 64)]
    split <;> omega
  unfold allocSize need
  simp only [e, hgs]
  rw [roundUp_eq (by omega)]
  exact Nat.mul_div_cancel _ hg

theorem need_pos {g n : Nat} (hg : 0 < g) : 0 < need g n := by
  unfold need
  apply Nat.div_pos <;> omega

theorem need_ge {g n : Nat} (hg : 0 < g) : max (n + 4) 64 ≤ need g n * g := by
  unfold need
  have h1 := Nat.div_add_mod (max (n + 4) 64 + (g - 1)) g
  have h2 := Nat.mod_lt (max (n + 4) 64 + (g - 1)) hg
  rw [Nat.mul_comm] at h1
  omega

theorem ok_init {size grain : Nat} {m : Heap} (h : LHeap.init size grain = some (some m))
    (hs : Sound m) : ∃ all, Ok m [] all ∧ all = [(true, ⟨8, m.size / m.grain⟩)] := by
  unfold LHeap.init at h
  simp only at h
  split at h
  · simp at h
  split at h
  · simp at h
  rename_i bits hb
  split at h
  · simp at h
  rename_i T hT
  simp only [Option.some.injEq] at h
  subst h
  obtain ⟨h1, h2, h3⟩ := id hs
  simp only [Heap.grain] at h1 h2 h3
  have hg : 0 < 2 ^ bits := Nat.two_pow_pos _
  obtain ⟨T', e, hi⟩ := start_ok (P := ⟨bits, freeHdr, roundUp size minSize + sigSize⟩) (base := 8)
    (N := roundUp size minSize / 2 ^ bits) cmpSize_agrees h3 (Nat.div_pos h2 hg) h1
    (by have := Nat.div_mul_le_self (roundUp size minSize) (2 ^ bits); simp only [sigSize]; omega)
  simp only [sigSize] at hT e
  rw [hT] at e
  cases e
  refine ⟨_, ⟨hs, ?_, hi, ?_, ?_, ?_⟩, rfl⟩
  · unfold roundUp
    have h1 : (size + (minSize - 1)) % 2 ^ 64 < 2 ^ 64 := Nat.mod_lt _ (by omega)
    have := Nat.div_mul_le_self ((size + (minSize - 1)) % 2 ^ 64) minSize
    simp only; omega
  · simp
  · simp
  · simp

theorem Ok.params_grain (m : Heap) : 2 ^ m.params.gbits = m.grain := rfl

/-- One allocation in a reachable state. -/
theorem ok_alloc {m : Heap} {out : List Block} {all : List Cell} (h : Ok m out all) {n : Nat}
    (hn : Sane m.grain n) :
    (alloc m n = some (m, none) ∧ ∀ c ∈ freeOf all, c.count < need m.grain n) ∨
    (∃ A B p T all', all = A ++ (true, p) :: B ∧
      all' = A ++ (false, ⟨p.start, need m.grain n⟩) :: (if p.count = need m.grain n then [] else
        [(true, ⟨p.start + need m.grain n * m.grain, p.count - need m.grain n⟩)]) ++ B ∧
      need m.grain n ≤ p.count ∧
      (∀ q ∈ freeOf all, need m.grain n ≤ q.count → p.count ≤ q.count) ∧
      alloc m n = some ({ m with trees := T, live := ⟨p.start, need m.grain n⟩ :: m.live, gn := (m.gn + 1) % 2 ^ 32 },
        some (p.start + 4)) ∧
      Ok { m with trees := T, live := ⟨p.start, need m.grain n⟩ :: m.live, gn := (m.gn + 1) % 2 ^ 32 }
        ((p.start + 4, n) :: out) all') := by
  have hg : 0 < m.grain := Nat.two_pow_pos _
  rcases take_ok cmpSize_agrees (by decide) h.inv (k := need m.grain n) (need_pos hg) hn.1 with
    ⟨e, h1⟩ | ⟨A, B, p, T, hall, hk, hmin, e, hi⟩
  · left
    exact ⟨by simp [alloc, allocCount_eq h.sound.1 hn, e], h1⟩
  · right
    refine ⟨A, B, p, T, _, hall, rfl, hk, hmin, by
      simp [alloc, allocCount_eq h.sound.1 hn, e, allocHdr]; exact hn.1, h.sound,
      h.szlt, hi, ?_, ?_, ?_⟩
    · have h2 := h.live
      rw [hall] at h2
      have e1 : liveOf (A ++ (true, p) :: B) = liveOf A ++ liveOf B := by simp [liveOf_append]
      rw [e1] at h2
      have e3 : liveOf (A ++ (false, ⟨p.start, need m.grain n⟩) ::
          (if p.count = need m.grain n then [] else
            [(true, ⟨p.start + need m.grain n * m.grain, p.count - need m.grain n⟩)]) ++ B)
          = liveOf A ++ ⟨p.start, need m.grain n⟩ :: liveOf B := by
        split <;> simp [liveOf_append]
      rw [e3]
      exact (h2.cons _).trans List.perm_middle.symm
    · simp only [List.map_cons, Nat.add_sub_cancel]
      exact h.outp.cons _
    · intro b hb
      rcases List.mem_cons.1 hb with rfl | hb
      · simp
      · exact h.ptr b hb

theorem ok_disjoint_live {m : Heap} {out : List Block} {all : List Cell} (h : Ok m out all) :
    m.live.Pairwise (fun c d => c.fin m.params ≤ d.start ∨ d.fin m.params ≤ c.start) := by
  have ho := h.inv.tile.ordered
  have h1 : (liveOf all).Pairwise (fun c d => c.fin m.params ≤ d.start ∨ d.fin m.params ≤ c.start) := by
    unfold liveOf
    rw [List.pairwise_map]
    exact (ho.sublist List.filter_sublist).imp (fun h => .inl h)
  exact (h.live.pairwise_iff (fun h => h.symm)).2 h1

theorem ok_disjoint {m : Heap} {out : List Block} {all : List Cell} (h : Ok m out all) :
    out.Pairwise (fun b c => b.1 + b.2 + 4 ≤ c.1 ∨ c.1 + c.2 + 4 ≤ b.1) := by
  have hg : 0 < m.grain := Nat.two_pow_pos _
  have h1 := ok_disjoint_live h
  have h2 := (h.outp.pairwise_iff (fun h => h.symm)).2 h1
  rw [List.pairwise_map] at h2
  apply List.Pairwise.imp_of_mem _ h2
  intro b c hb hc hbc
  have hb' := h.ptr b hb
  have hc' := h.ptr c hc
  have k1 := @need_ge m.grain b.2 hg
  have k2 := @need_ge m.grain c.2 hg
  simp only [Chunk.fin, Ok.params_grain] at hbc
  omega

theorem ok_header {m : Heap} {out : List Block} {all : List Cell} (h : Ok m out all) {b : Block}
    (hb : b ∈ out) : header m b.1 = some ⟨b.1 - 4, need m.grain b.2⟩ ∧
      (⟨b.1 - 4, need m.grain b.2⟩ : Chunk) ∈ m.live := by
  have hp := h.ptr b hb
  have hm : (⟨b.1 - 4, need m.grain b.2⟩ : Chunk) ∈ m.live :=
    h.outp.mem_iff.1 (List.mem_map.2 ⟨b, hb, rfl⟩)
  refine ⟨?_, hm⟩
  unfold header
  cases hf : m.live.find? (fun c => c.start + allocHdr == b.1) with
  | none =>
    rw [List.find?_eq_none] at hf
    have := hf _ hm
    simp [allocHdr] at this
    omega
  | some c =>
    have hc := List.mem_of_find?_eq_some hf
    have he := List.find?_some hf
    simp [allocHdr] at he
    congr 1
    by_cases heq : c = ⟨b.1 - 4, need m.grain b.2⟩
    · exact heq
    · exfalso
      have hd := ok_disjoint_live h
      have hb1 : 0 < c.count := by
        have := h.inv.tile.bounds (false, c) (mem_liveOf.1 (h.live.mem_iff.1 hc))
        exact this.2.2
      have hb2 := @need_pos m.grain b.2 (Nat.two_pow_pos _)
      have h1 := c.start_lt_fin m.params hb1
      have h2 := Chunk.start_lt_fin m.params ⟨b.1 - 4, need m.grain b.2⟩ hb2
      have key : c.fin m.params ≤ b.1 - 4 ∨
          Chunk.fin m.params ⟨b.1 - 4, need m.grain b.2⟩ ≤ c.start := by
        exact pairwise_sym_mem (R := fun (c d : Chunk) =>
            c.fin m.params ≤ d.start ∨ d.fin m.params ≤ c.start) (fun _ _ h => h.symm) hd hc hm heq
      simp only at h2
      omega

/-- One free of an outstanding block in a reachable state. -/
theorem ok_free {m : Heap} {out : List Block} {all : List Cell} (h : Ok m out all) {b : Block}
    (hb : b ∈ out) :
    ∃ m' all', free m b.1 = some m' ∧ m'.gbits = m.gbits ∧ m'.size = m.size ∧
      (∃ p ∈ freeOf all', need m.grain b.2 ≤ p.count) ∧ Ok m' (out.erase b) all' ∧
      (∃ A A' p p' B B', all = A ++ (false, p) :: B ∧ all' = A' ++ (true, p') :: B' ∧
        (A = A' ∨ ∃ q, A = A' ++ [(true, q)]) ∧ (B = B' ∨ ∃ q, B = (true, q) :: B')) := by
  obtain ⟨e1, hm⟩ := ok_header h hb
  obtain ⟨A, B, hAB⟩ := split_mem (mem_liveOf.1 (h.live.mem_iff.1 hm))
  have hi := h.inv
  rw [hAB] at hi
  obtain ⟨T', A', p', B', e2, hl, hcount, hAA, hBB, hi'⟩ := give_ok cmpSize_agrees rfl h.sound.2.2 hi
  have hst : b.1 - 4 < m.size := by
    have h2 := (hi.tile.bounds (false, ⟨b.1 - 4, need m.grain b.2⟩) (by simp)).2.1
    have h3 := @need_ge m.grain b.2 (Nat.two_pow_pos _)
    have h4 := Nat.div_mul_le_self m.size m.grain
    have h5 : m.grain = 2 ^ m.gbits := rfl
    simp only [Chunk.fin, Ok.params_grain] at h2
    rw [← h5] at h2
    omega
  refine ⟨{ m with trees := T', live := m.live.erase ⟨b.1 - 4, need m.grain b.2⟩, gn := (m.gn + 1) % 2 ^ 32 }, _,
    by simp [free, e1, e2, hst], rfl, rfl,
    ⟨p', by simp [freeOf_append], hcount⟩, ⟨h.sound, h.szlt, hi', ?_, ?_, ?_⟩,
    ⟨A, A', _, p', B, B', hAB, rfl, hAA, hBB⟩⟩
  · rw [hl]
    have h1 : m.live.Perm (⟨b.1 - 4, need m.grain b.2⟩ :: (liveOf A ++ liveOf B)) := by
      refine h.live.trans ?_
      rw [hAB, liveOf_append, liveOf_cons_live]
      exact List.perm_middle
    simpa using h1.erase ⟨b.1 - 4, need m.grain b.2⟩
  · have h1 := (List.perm_cons_erase hb).map (fun b => (⟨b.1 - 4, need m.grain b.2⟩ : Chunk))
    have h2 := (h1.symm.trans h.outp).erase ⟨b.1 - 4, need m.grain b.2⟩
    simp at h2
    exact h2
  · intro c hc
    exact h.ptr c (List.mem_of_mem_erase hc)

/-- Every reachable state satisfies the invariant. -/
theorem reach_ok {m : Heap} {out : List Block} (h : Reach m out) : ∃ all, Ok m out all := by
  induction h with
  | init h hs => obtain ⟨all, h, _⟩ := ok_init h hs; exact ⟨all, h⟩
  | alloc _ hn e ih =>
    obtain ⟨all, h⟩ := ih
    rcases ok_alloc h hn with ⟨e', _⟩ | ⟨A, B, p, T, all', _, _, _, _, e', h'⟩
    · rw [e] at e'; simp at e'
    · rw [e] at e'
      simp only [Option.some.injEq, Prod.mk.injEq] at e'
      obtain ⟨rfl, rfl⟩ := e'
      exact ⟨_, h'⟩
  | fail _ hn e ih =>
    obtain ⟨all, h⟩ := ih
    rcases ok_alloc h hn with ⟨e', _⟩ | ⟨A, B, p, T, all', _, _, _, _, e', h'⟩
    · rw [e] at e'
      simp only [Option.some.injEq, Prod.mk.injEq] at e'
      obtain ⟨rfl, _⟩ := e'
      exact ⟨_, h⟩
    · rw [e] at e'; simp at e'
  | free _ hb e ih =>
    obtain ⟨all, h⟩ := ih
    obtain ⟨m', all', e', _, _, _, h', _⟩ := ok_free h hb
    rw [e] at e'
    cases e'
    exact ⟨_, h'⟩

/-- `mm_stats` as folds over the free chunks. -/
theorem stats_fold (l : List Chunk) (s : Info) :
    (l.foldl heapStat s).freeChunks = s.freeChunks + l.length ∧
    (l.foldl heapStat s).freeBytes = s.freeBytes + (l.map Chunk.count).sum ∧
    (l.foldl heapStat s).size = s.size ∧ (l.foldl heapStat s).grain = s.grain ∧
    (∀ k, k ≤ (l.foldl heapStat s).largest ↔ k ≤ s.largest ∨ ∃ c ∈ l, k ≤ c.count) ∧
    (∀ k, (l.foldl heapStat s).smallest ≤ k ↔ s.smallest ≤ k ∨ ∃ c ∈ l, c.count ≤ k) := by
  induction l generalizing s with
  | nil => simp
  | cons c l ih =>
    obtain ⟨h1, h2, h3, h4, h5, h6⟩ := ih (heapStat s c)
    simp only [List.foldl_cons]
    refine ⟨by rw [h1]; simp [heapStat]; omega, by rw [h2]; simp [heapStat]; omega,
      by rw [h3]; simp [heapStat], by rw [h4]; simp [heapStat], ?_, ?_⟩
    · intro k
      rw [h5]
      have : k ≤ (heapStat s c).largest ↔ k ≤ s.largest ∨ k ≤ c.count := by
        simp only [heapStat]; split <;> omega
      rw [this]; simp [or_assoc]
    · intro k
      rw [h6]
      have : (heapStat s c).smallest ≤ k ↔ s.smallest ≤ k ∨ c.count ≤ k := by
        simp only [heapStat]; split <;> omega
      rw [this]; simp [or_assoc]

/-- the free chunks, in address order -/
theorem ok_free_list {m : Heap} {out : List Block} {all : List Cell} (h : Ok m out all) :
    (traverse m.trees.addr.root).Perm (freeOf all) := by
  obtain ⟨l, hl, hp⟩ := h.inv.addr
  rw [hl.list]; exact hp

theorem tile_fin_unique {P : Params} : ∀ {cs : List Cell} {a b c : Nat}, Tile P a cs b →
    Tile P a cs c → b = c := by
  intro cs
  induction cs with
  | nil => intro a b c h1 h2; simp [Tile] at h1 h2; omega
  | cons d cs ih => intro a b c h1 h2; exact ih h1.2.2 h2.2.2

/-- If every chunk starts at a multiple of `u` bytes from the start of the region and every free
chunk is shorter than that, there are less than `u` free bytes. -/
theorem tile_uniform {P : Params} {u : Nat} : ∀ {cs : List Cell} {a b : Nat},
    Tile P a cs b → (∀ c ∈ cs, (c.2.start - a) % u = 0) →
    (∀ c ∈ freeOf cs, c.count * 2 ^ P.gbits < u) →
    ((freeOf cs).map Chunk.count).sum * 2 ^ P.gbits < u ∨ freeOf cs = [] := by
  intro cs
  induction cs with
  | nil => intro a b _ _ _; right; rfl
  | cons c cs ih =>
    rintro a b ⟨h1, h2, h3⟩ hal hfree
    rcases c with ⟨t, c⟩
    simp only at h1 h2 h3
    -- the next chunk, if any, starts at the end of this one
    cases cs with
    | nil =>
      cases t
      · right; simp
      · left; simpa using hfree c (by simp)
    | cons d ds =>
      have hd : (c.fin P - a) % u = 0 := by
        have := hal d (by simp)
        rw [h3.1] at this; exact this
      have hcf : c.fin P = a + c.count * 2 ^ P.gbits := by unfold Chunk.fin; rw [h1]
      have hd' : c.count * 2 ^ P.gbits % u = 0 := by
        rw [hcf, Nat.add_sub_cancel_left] at hd; exact hd
      have hpos : 0 < c.count * 2 ^ P.gbits := Nat.mul_pos h2 (Nat.two_pow_pos _)
      cases t with
      | true =>
        exfalso
        have := hfree c (by simp)
        rw [Nat.mod_eq_of_lt this] at hd'
        omega
      | false =>
        have hal' : ∀ e ∈ d :: ds, (e.2.start - c.fin P) % u = 0 := by
          intro e he
          have h5 := hal e (List.mem_cons_of_mem _ he)
          have h6 := (h3.bounds e he).1
          have e1 : e.2.start - a = (e.2.start - c.fin P) + c.count * 2 ^ P.gbits := by omega
          rw [e1, Nat.add_mod, hd', Nat.add_zero, Nat.mod_mod] at h5
          exact h5
        have := ih h3 hal' (by intro e he; exact hfree e (by simpa using he))
        simpa using this

end Verif.LHeap
