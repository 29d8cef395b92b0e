import Verif.ZapRdma.Spec
import Verif.Rbt.Lookup

/-!
# Proofs about remote memory access
-/

namespace Verif.ZapRdma

open Rbt (Coupled LawfulCmp)

/-- subtraction without wrap-around -/
def ncmp (a b : Nat) : Int := (a : Int) - b

theorem ncmp_lawful : LawfulCmp ncmp where
  anti a b := by unfold ncmp; omega
  trans a b c := by unfold ncmp; omega

theorem zcmp_eq {a b : Nat} (ha : a < 2 ^ 31) (hb : b < 2 ^ 31) : zcmp a b = ncmp a b := by
  unfold zcmp ncmp
  simp only []
  split <;> omega

theorem zcmp_zero {a b : Nat} (ha : a < 2 ^ 32) (hb : b < 2 ^ 32) (h : zcmp a b = 0) : a = b := by
  unfold zcmp at h
  simp only [] at h
  split at h <;> omega

theorem and_two (a : Nat) : a &&& 2 = 2 ↔ a / 2 % 2 = 1 := by
  have h1 : (a &&& 2) / 2 = a / 2 &&& 2 / 2 := Nat.and_div_two
  have h2 : a &&& 2 ≤ 2 := Nat.and_le_right
  rw [show 2 / 2 = 1 by rfl, Nat.and_one_is_mod] at h1
  omega

theorem mapValidate_write {m : ZMap} {p sz : Nat} (hm : m.addr + m.len < 2 ^ 64)
    (hp : p + sz < 2 ^ 64) : mapValidate m p sz accWrite =
      if ¬ (m.addr ≤ p ∧ p + sz ≤ m.addr + m.len) then .remoteLen
      else if ¬ Grants m.acc .write then .remotePermission else .ok := by
  unfold mapValidate Grants accWrite
  rw [Nat.mod_eq_of_lt hm, Nat.mod_eq_of_lt hp, Nat.and_one_is_mod]
  have : (p < m.addr ∨ m.addr + m.len < p + sz) ↔ ¬ (m.addr ≤ p ∧ p + sz ≤ m.addr + m.len) := by
    omega
  simp only [this, ne_eq]

theorem mapValidate_read {m : ZMap} {p sz : Nat} (hm : m.addr + m.len < 2 ^ 64)
    (hp : p + sz < 2 ^ 64) : mapValidate m p sz accRead =
      if ¬ (m.addr ≤ p ∧ p + sz ≤ m.addr + m.len) then .remoteLen
      else if ¬ Grants m.acc .read then .remotePermission else .ok := by
  unfold mapValidate Grants accRead
  rw [Nat.mod_eq_of_lt hm, Nat.mod_eq_of_lt hp]
  have : (p < m.addr ∨ m.addr + m.len < p + sz) ↔ ¬ (m.addr ≤ p ∧ p + sz ≤ m.addr + m.len) := by
    omega
  simp only [this, ne_eq, and_two]

/-- the invariant: the key tree lists exactly the live shared maps -/
structure Inv (s : St) : Prop where
  tree : ∃ l, Coupled ncmp KeyEnt.key s.tree l ∧
    ∀ e : KeyEnt, e ∈ l ↔ ∃ m, s.maps e.map = some m ∧ m.key = e.key ∧ e.key ≠ 0
  live : ∀ id m, s.maps id = some m → 0 < m.ref ∧ m.key ≤ s.lastKey ∧ m.addr + m.len < 2 ^ 64
  inj : ∀ i j m m', s.maps i = some m → s.maps j = some m' → m.key = m'.key → m.key ≠ 0 → i = j
  last : 0 < s.lastKey ∧ s.lastKey < 2 ^ 31

theorem inv_init (mem : Nat → Byte) : Inv (St.init mem) where
  tree := ⟨[], Rbt.coupled_init _ _, by simp [St.init]⟩
  live := by simp [St.init]
  inj := by simp [St.init]
  last := by simp [St.init]

/-- the lookup finds the map shared under the key, and only that -/
theorem keyFind_spec {s : St} (h : Inv s) {k : Nat} (hk : k < 2 ^ 32) :
    (∀ e, keyFind s k = some e → e.key = k ∧ k ≠ 0 ∧ ∃ m, s.maps e.map = some m ∧ m.key = k) ∧
    (keyFind s k = none → ∀ id m, s.maps id = some m → m.key = k → k = 0) := by
  obtain ⟨l, hc, hl⟩ := h.tree
  have hbound : ∀ e ∈ l, e.key < 2 ^ 31 := by
    intro e he
    obtain ⟨m, h1, h2, _⟩ := (hl e).1 he
    have := (h.live _ _ h1).2.1
    have := h.last.2
    omega
  constructor
  · intro e he
    obtain ⟨h1, h2⟩ := Rbt.find_sound he
    rw [hc.list] at h1
    have hk' := zcmp_zero (by have := hbound e h1; omega) hk h2
    obtain ⟨m, h3, h4, h5⟩ := (hl e).1 h1
    exact ⟨hk', hk' ▸ h5, m, h3, by omega⟩
  · intro hn id m hm hmk
    apply Classical.byContradiction
    intro hk0
    have hmem : (⟨k, id⟩ : KeyEnt) ∈ l := (hl _).2 ⟨m, hm, hmk, hk0⟩
    have hkb := hbound _ hmem
    simp only at hkb
    have : keyFind s k = Rbt.find ncmp KeyEnt.key k s.tree.root := by
      unfold keyFind
      apply Rbt.find_congr
      intro x hx
      rw [hc.list] at hx
      exact zcmp_eq (hbound x hx) hkb
    obtain ⟨y, hy⟩ := Rbt.find_complete ncmp_lawful (key := KeyEnt.key) (k := k)
      (by rw [hc.list]; exact hc.sorted) (by rw [hc.list]; exact hmem) (by simp [ncmp])
    rw [this, hy] at hn
    cases hn

theorem keyFind_shared {s : St} (h : Inv s) {id : Nat} {m : ZMap} (hm : s.maps id = some m)
    (hk : m.key ≠ 0) : keyFind s m.key = some ⟨m.key, id⟩ := by
  have hb : m.key < 2 ^ 32 := by
    have := (h.live _ _ hm).2.1
    have := h.last.2
    omega
  obtain ⟨h1, h2⟩ := keyFind_spec h hb
  cases he : keyFind s m.key with
  | none => exact absurd (h2 he id m hm rfl) hk
  | some e =>
    obtain ⟨e1, _, m', e2, e3⟩ := h1 e he
    have := h.inj _ _ _ _ hm e2 e3.symm hk
    cases e
    simp only at e1 this
    subst e1 this
    rfl

/-- a change of a live map that keeps its key -/
theorem inv_update {s : St} (h : Inv s) {id : Nat} {m m' : ZMap} (hm : s.maps id = some m)
    (hkey : m'.key = m.key) (href : 0 < m'.ref) (hreg : m'.addr + m'.len < 2 ^ 64) :
    Inv { s with maps := setMap s id (some m') } where
  tree := by
    obtain ⟨l, hc, hl⟩ := h.tree
    refine ⟨l, hc, fun e => ?_⟩
    rw [hl e]
    simp only [setMap]
    by_cases hid : e.map = id
    · subst hid
      simp [hm, hkey]
    · simp [hid]
  live := by
    intro i n hn
    simp only [setMap] at hn
    split at hn
    · obtain rfl : m' = n := Option.some.inj hn
      exact ⟨href, by rw [hkey]; exact (h.live _ _ hm).2.1, hreg⟩
    · exact h.live i n hn
  inj := by
    intro i j a b ha hb hab ha0
    simp only [setMap] at ha hb
    split at ha <;> split at hb
    · omega
    · obtain rfl : m' = a := Option.some.inj ha
      have := h.inj id j m b hm hb (by omega) (by omega)
      omega
    · obtain rfl : m' = b := Option.some.inj hb
      have := h.inj i id a m ha hm (by omega) ha0
      omega
    · exact h.inj i j a b ha hb hab ha0
  last := h.last

theorem inv_map {s : St} (h : Inv s) {id addr len acc : Nat} (hm : s.maps id = none)
    (hreg : addr + len < 2 ^ 64) :
    Inv { s with maps := setMap s id (some ⟨addr, len, acc, 1, 0⟩) } where
  tree := by
    obtain ⟨l, hc, hl⟩ := h.tree
    refine ⟨l, hc, fun e => ?_⟩
    rw [hl e]
    simp only [setMap]
    by_cases hid : e.map = id
    · subst hid
      simp only [hm, if_true]
      constructor
      · rintro ⟨m, h1, _⟩; cases h1
      · rintro ⟨m, h1, h2, h3⟩
        obtain rfl := Option.some.inj h1
        exact absurd h2.symm h3
    · simp [hid]
  live := by
    intro i n hn
    simp only [setMap] at hn
    split at hn
    · obtain rfl := Option.some.inj hn
      exact ⟨Nat.one_pos, Nat.zero_le _, hreg⟩
    · exact h.live i n hn
  inj := by
    intro i j a b ha hb hab ha0
    simp only [setMap] at ha hb
    split at ha
    · obtain rfl := Option.some.inj ha
      exact absurd rfl ha0
    · split at hb
      · obtain rfl := Option.some.inj hb
        simp only at hab
        exact absurd hab ha0
      · exact h.inj i j a b ha hb hab ha0
  last := h.last

theorem inv_unshared_unmap {s : St} (h : Inv s) {id : Nat} {m : ZMap} (hm : s.maps id = some m)
    (hk : m.key = 0) : Inv { s with maps := setMap s id none } where
  tree := by
    obtain ⟨l, hc, hl⟩ := h.tree
    refine ⟨l, hc, fun e => ?_⟩
    rw [hl e]
    simp only [setMap]
    by_cases hid : e.map = id
    · subst hid
      simp [hm, hk, eq_comm]
    · simp [hid]
  live := by
    intro i n hn
    simp only [setMap] at hn
    split at hn
    · cases hn
    · exact h.live i n hn
  inj := by
    intro i j a b ha hb hab ha0
    simp only [setMap] at ha hb
    split at ha
    · cases ha
    · split at hb
      · cases hb
      · exact h.inj i j a b ha hb hab ha0
  last := h.last

theorem inv_shared_unmap {s : St} (h : Inv s) {id : Nat} {m : ZMap} (hm : s.maps id = some m)
    (hk : m.key ≠ 0) : ∃ t, keyDelete s m.key = some { s with tree := t } ∧
      Inv { s with tree := t, maps := setMap s id none } := by
  obtain ⟨l, hc, hl⟩ := h.tree
  have hmem : (⟨m.key, id⟩ : KeyEnt) ∈ l := (hl _).2 ⟨m, hm, rfl, hk⟩
  obtain ⟨t, e1, hc'⟩ := Rbt.coupled_del hc hmem
  refine ⟨t, by simp [keyDelete, keyFind_shared h hm hk, e1], ?_, ?_, ?_, h.last⟩
  · refine ⟨_, hc', fun e => ?_⟩
    rw [hc.nodup.mem_erase_iff, hl e]
    simp only [setMap]
    by_cases hid : e.map = id
    · subst hid
      simp only [hm, if_true]
      constructor
      · rintro ⟨h1, n, h2, h3, h4⟩
        obtain rfl := Option.some.inj h2
        exact absurd (by cases e; simp at h3 ⊢; exact h3.symm) h1
      · rintro ⟨n, h2, _⟩; cases h2
    · simp only [hid, if_false]
      constructor
      · exact fun h' => h'.2
      · exact fun h' => ⟨fun he => hid (by rw [he]), h'⟩
  · intro i n hn
    simp only [setMap] at hn
    split at hn
    · cases hn
    · exact h.live i n hn
  · intro i j a b ha hb hab ha0
    simp only [setMap] at ha hb
    split at ha
    · cases ha
    · split at hb
      · cases hb
      · exact h.inj i j a b ha hb hab ha0

/-- the process after a first share of `id` -/
def shareSt (s : St) (id : Nat) (m : ZMap) (t : Rbt.Rbt KeyEnt) : St :=
  ⟨setMap s id (some { m with key := s.lastKey + 1 }), s.lastKey + 1, t, s.mem⟩

theorem inv_share {s : St} (h : Inv s) {id : Nat} {m : ZMap} (hm : s.maps id = some m)
    (hk : m.key = 0) (hlast : s.lastKey + 1 < 2 ^ 31) : ∃ t,
      keyAlloc s id m = some (shareSt s id m t, s.lastKey + 1) ∧ Inv (shareSt s id m t) := by
  obtain ⟨l, hc, hl⟩ := h.tree
  have hbound : ∀ e ∈ l, e.key ≤ s.lastKey := by
    intro e he
    obtain ⟨m, h1, h2, _⟩ := (hl e).1 he
    have := (h.live _ _ h1).2.1
    omega
  have hnot : (⟨s.lastKey + 1, id⟩ : KeyEnt) ∉ l := by
    intro hmem
    have := hbound _ hmem
    simp only at this
    omega
  obtain ⟨t, e1, hc'⟩ := Rbt.coupled_ins ncmp_lawful hc hnot
  have e1' : Rbt.ins zcmp KeyEnt.key s.tree ⟨s.lastKey + 1, id⟩ = some t := by
    rw [← e1]
    apply Rbt.ins_congr
    intro y hy
    rw [hc.list] at hy
    rw [zcmp_eq (by have := hbound y hy; omega) hlast]
  have hmod : (s.lastKey + 1) % 2 ^ 32 = s.lastKey + 1 := Nat.mod_eq_of_lt (by omega)
  refine ⟨t, ?_, ?_, ?_, ?_, ?_⟩
  · simp only [keyAlloc, hk, hmod]
    simp [e1', shareSt]
  · refine ⟨_, hc', fun e => ?_⟩
    rw [(Rbt.perm_insertSorted).mem_iff, List.mem_cons, hl e]
    simp only [shareSt, setMap]
    by_cases hid : e.map = id
    · subst hid
      simp only [hm, if_true]
      constructor
      · rintro (h1 | ⟨n, h1, h2, h3⟩)
        · exact ⟨_, rfl, by rw [h1], by rw [h1]; simp⟩
        · obtain rfl := Option.some.inj h1
          exact absurd (h2.symm.trans hk) h3
      · rintro ⟨n, h1, h2, h3⟩
        obtain rfl := Option.some.inj h1
        left
        cases e
        simp only at h2
        subst h2
        rfl
    · simp only [hid, if_false]
      constructor
      · rintro (h1 | h1)
        · exact absurd (by rw [h1]) hid
        · exact h1
      · exact Or.inr
  · intro i n hn
    simp only [shareSt, setMap] at hn
    split at hn
    · obtain rfl := Option.some.inj hn
      have := h.live _ _ hm
      exact ⟨this.1, Nat.le_refl _, this.2.2⟩
    · have := h.live i n hn
      exact ⟨this.1, by simp only [shareSt]; omega, this.2.2⟩
  · intro i j a b ha hb hab ha0
    simp only [shareSt, setMap] at ha hb
    split at ha <;> split at hb
    · omega
    · obtain rfl := Option.some.inj ha
      have := (h.live _ _ hb).2.1
      simp only at hab
      omega
    · obtain rfl := Option.some.inj hb
      have := (h.live _ _ ha).2.1
      simp only at hab
      omega
    · exact h.inj i j a b ha hb hab ha0
  · exact ⟨by simp [shareSt], hlast⟩

/-- the answer a peer gets, in terms of the maps -/
theorem keyValidate_spec {s : St} (h : Inv s) {k p sz : Nat} (hk : k < 2 ^ 32) (kind : Kind)
    (hp : p + sz < 2 ^ 64) :
    ∃ st, keyValidate s k p sz (match kind with | .read => accRead | .write => accWrite) = some st ∧
      (st = .ok ↔ Exposed s k p sz kind) ∧
      (st = .remoteMap ↔ Unknown s k) ∧
      (st = .remoteLen ↔ ∃ id m, s.maps id = some m ∧ m.key = k ∧ k ≠ 0 ∧
        ¬ (m.addr ≤ p ∧ p + sz ≤ m.addr + m.len)) ∧
      (st = .remotePermission ↔ ∃ id m, s.maps id = some m ∧ m.key = k ∧ k ≠ 0 ∧
        m.addr ≤ p ∧ p + sz ≤ m.addr + m.len ∧ ¬ Grants m.acc kind) := by
  obtain ⟨h1, h2⟩ := keyFind_spec h hk
  unfold keyValidate
  cases he : keyFind s k with
  | none =>
    have hu : ∀ id m, s.maps id = some m → m.key = k → k = 0 := h2 he
    refine ⟨.remoteMap, rfl, ⟨fun x => by (cases x), ?_⟩, ⟨fun _ => hu, fun _ => rfl⟩,
      ⟨fun x => by (cases x), ?_⟩, ⟨fun x => by (cases x), ?_⟩⟩
    · rintro ⟨id, m, a, b, c, _⟩; exact absurd (hu id m a b) c
    · rintro ⟨id, m, a, b, c, _⟩; exact absurd (hu id m a b) c
    · rintro ⟨id, m, a, b, c, _⟩; exact absurd (hu id m a b) c
  | some e =>
    obtain ⟨e1, e2, m, e3, e4⟩ := h1 e he
    have hreg := (h.live _ _ e3).2.2
    have huniq : ∀ id n, s.maps id = some n → n.key = k → k ≠ 0 → n = m := by
      intro id n a b c
      have := h.inj id e.map n m a e3 (by omega) (by omega)
      subst this
      rw [a] at e3
      exact Option.some.inj e3
    have hv : mapValidate m p sz (match kind with | .read => accRead | .write => accWrite) =
        if ¬ (m.addr ≤ p ∧ p + sz ≤ m.addr + m.len) then .remoteLen
        else if ¬ Grants m.acc kind then .remotePermission else .ok := by
      cases kind with
      | read => exact mapValidate_read hreg hp
      | write => exact mapValidate_write hreg hp
    simp only [e3, hv]
    refine ⟨_, rfl, ?_⟩
    by_cases hr : m.addr ≤ p ∧ p + sz ≤ m.addr + m.len
    · by_cases hg : Grants m.acc kind
      · rw [if_neg (fun hn => hn hr), if_neg (fun hn => hn hg)]
        refine ⟨⟨fun _ => ⟨e.map, m, e3, e4, e2, hr.1, hr.2, hg⟩, fun _ => rfl⟩,
          ⟨fun x => by (cases x), fun hu => absurd (hu _ _ e3 e4) e2⟩,
          ⟨fun x => by (cases x), ?_⟩, ⟨fun x => by (cases x), ?_⟩⟩
        · rintro ⟨id, n, a, b, c, d⟩
          rw [huniq id n a b c] at d
          exact absurd hr d
        · rintro ⟨id, n, a, b, c, _, _, d⟩
          rw [huniq id n a b c] at d
          exact absurd hg d
      · rw [if_neg (fun hn => hn hr), if_pos hg]
        refine ⟨⟨fun x => by (cases x), ?_⟩,
          ⟨fun x => by (cases x), fun hu => absurd (hu _ _ e3 e4) e2⟩,
          ⟨fun x => by (cases x), ?_⟩,
          ⟨fun _ => ⟨e.map, m, e3, e4, e2, hr.1, hr.2, hg⟩, fun _ => rfl⟩⟩
        · rintro ⟨id, n, a, b, c, _, _, d⟩
          rw [huniq id n a b c] at d
          exact absurd d hg
        · rintro ⟨id, n, a, b, c, d⟩
          rw [huniq id n a b c] at d
          exact absurd hr d
    · rw [if_pos hr]
      refine ⟨⟨fun x => by (cases x), ?_⟩,
        ⟨fun x => by (cases x), fun hu => absurd (hu _ _ e3 e4) e2⟩,
        ⟨fun _ => ⟨e.map, m, e3, e4, e2, hr⟩, fun _ => rfl⟩,
        ⟨fun x => by (cases x), ?_⟩⟩
      · rintro ⟨id, n, a, b, c, d, d', _⟩
        rw [huniq id n a b c] at d d'
        exact absurd ⟨d, d'⟩ hr
      · rintro ⟨id, n, a, b, c, d, d', _⟩
        rw [huniq id n a b c] at d d'
        exact absurd ⟨d, d'⟩ hr

/-- the validation never meets a freed map -/
theorem keyValidate_some {s : St} (h : Inv s) {k : Nat} (hk : k < 2 ^ 32) (p sz acc : Nat) :
    ∃ st, keyValidate s k p sz acc = some st := by
  unfold keyValidate
  cases he : keyFind s k with
  | none => exact ⟨_, rfl⟩
  | some e =>
    obtain ⟨_, _, m, e3, _⟩ := (keyFind_spec h hk).1 e he
    simp only [e3]
    exact ⟨_, rfl⟩

theorem inv_mem {s : St} (h : Inv s) (mem : Nat → Byte) : Inv { s with mem := mem } :=
  ⟨h.tree, h.live, h.inj, h.last⟩

/-- one step of the process -/
theorem inv_step {s : St} (h : Inv s) {op : Op} (hleg : LegalOp s op)
    (hsh : ∀ q id, op = .share q id → s.lastKey + 1 < 2 ^ 31) {s' : St} {r : Resp}
    (e : step s op = some (s', r)) :
    Inv s' ∧ s'.lastKey ≤ s.lastKey + shares [op] := by
  cases op with
  | map id addr len acc =>
    simp only [step, Option.some.injEq, Prod.mk.injEq] at e
    obtain ⟨rfl, rfl⟩ := e
    exact ⟨inv_map h hleg.1 hleg.2, by simp⟩
  | get id =>
    simp only [step] at e
    split at e
    · cases e
    · rename_i m hm
      simp only [Option.some.injEq, Prod.mk.injEq] at e
      obtain ⟨rfl, rfl⟩ := e
      exact ⟨inv_update h hm rfl (by simp) (h.live _ _ hm).2.2, by simp⟩
  | unmap id =>
    simp only [step] at e
    split at e
    · cases e
    · rename_i m hm
      split at e
      · cases e
      · split at e
        · simp only [Option.some.injEq, Prod.mk.injEq] at e
          obtain ⟨rfl, rfl⟩ := e
          exact ⟨inv_update h hm rfl (by simp only; omega) (h.live _ _ hm).2.2, by simp⟩
        · split at e
          · rename_i hk
            simp only [Option.some.injEq, Prod.mk.injEq] at e
            obtain ⟨rfl, rfl⟩ := e
            exact ⟨inv_unshared_unmap h hm hk, by simp⟩
          · rename_i hk
            obtain ⟨t, e1, h1⟩ := inv_shared_unmap h hm hk
            rw [e1] at e
            simp only [Option.some.injEq, Prod.mk.injEq] at e
            obtain ⟨rfl, rfl⟩ := e
            exact ⟨h1, by simp⟩
  | share q id =>
    simp only [step] at e
    split at e
    · cases e
    · rename_i m hm
      by_cases hk : m.key = 0
      · obtain ⟨t, e1, h1⟩ := inv_share h hm hk (hsh q id rfl)
        rw [e1] at e
        simp only [Option.some.injEq, Prod.mk.injEq] at e
        obtain ⟨rfl, rfl⟩ := e
        exact ⟨h1, by simp [shares, shareSt]⟩
      · simp only [keyAlloc, ne_eq, hk, not_false_eq_true, if_true, Option.some.injEq,
          Prod.mk.injEq] at e
        obtain ⟨rfl, rfl⟩ := e
        exact ⟨h, by simp⟩
  | poke a v =>
    simp only [step, Option.some.injEq, Prod.mk.injEq] at e
    obtain ⟨rfl, rfl⟩ := e
    exact ⟨inv_mem h _, by simp⟩
  | readReq q key src len =>
    simp only [step] at e
    split at e
    · cases e
    · split at e
      · simp only [Option.some.injEq, Prod.mk.injEq] at e
        obtain ⟨rfl, rfl⟩ := e
        exact ⟨h, by simp⟩
      · cases e
    · simp only [Option.some.injEq, Prod.mk.injEq] at e
      obtain ⟨rfl, rfl⟩ := e
      exact ⟨h, by simp⟩
  | writeReq q key dst len data =>
    simp only [step] at e
    split at e
    · cases e
    · split at e
      · simp only [Option.some.injEq, Prod.mk.injEq] at e
        obtain ⟨rfl, rfl⟩ := e
        exact ⟨inv_mem h _, by simp⟩
      · cases e
    · simp only [Option.some.injEq, Prod.mk.injEq] at e
      obtain ⟨rfl, rfl⟩ := e
      exact ⟨h, by simp⟩

theorem shares_cons (op : Op) (ops : List Op) : shares (op :: ops) = shares [op] + shares ops := by
  cases op <;> simp [shares, Nat.add_comm]

theorem inv_run : ∀ (ops : List Op) (s : St), Inv s → Legal s ops →
    s.lastKey + shares ops < 2 ^ 31 → ∀ s' rs, run s ops = some (s', rs) → Inv s' ∧
      s'.lastKey ≤ s.lastKey + shares ops := by
  intro ops
  induction ops with
  | nil =>
    intro s h _ _ s' rs e
    simp only [run, Option.some.injEq, Prod.mk.injEq] at e
    obtain ⟨rfl, _⟩ := e
    exact ⟨h, Nat.le_add_right _ _⟩
  | cons op ops ih =>
    intro s h hleg hsh s' rs e
    obtain ⟨hop, hrest⟩ := hleg
    rw [shares_cons] at hsh
    simp only [run] at e
    split at e
    · cases e
    · rename_i s1 r1 e1
      split at e
      · cases e
      · rename_i s2 rs2 e2
        simp only [Option.some.injEq, Prod.mk.injEq] at e
        obtain ⟨rfl, _⟩ := e
        have h1 := inv_step h hop (by
          intro q id hid
          subst hid
          simp only [shares] at hsh
          omega) e1
        have h2 := ih s1 h1.1 (hrest s1 r1 e1) (by omega) s2 rs2 e2
        exact ⟨h2.1, by rw [shares_cons]; omega⟩

theorem reach_inv {s : St} (h : Reach s) : Inv s ∧ s.lastKey + 1 < 2 ^ 31 := by
  obtain ⟨mem, ops, rs, hleg, hsh, e⟩ := h
  have hb : (St.init mem).lastKey = 1 := rfl
  have := inv_run ops _ (inv_init mem) hleg (by rw [hb]; omega) s rs e
  rw [hb] at this
  exact ⟨this.1, by omega⟩

end Verif.ZapRdma
