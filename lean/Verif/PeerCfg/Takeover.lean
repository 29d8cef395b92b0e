import Verif.PeerCfg.Own

/-!
# Proofs: starting what came from the peer, and dropping it
-/

namespace Verif.PeerCfg

open Verif.SetOwner (Str)
open Verif.Strgp (Pol Sel Who)

/-- a producer and an updater that are started -/
def goPrdcr (p : Prdcr) : Prdcr := { p with
  conn := .disconnected
  perm := p.perm ||| 512 }

def goUpdtr (w : World) (u : Updtr) : Updtr := { taskInit w.skew u.ivl u.off u with
  running := true
  perm := u.perm ||| 512 }

/-- permissions with the same bits for writing -/
theorem allowed_bits {w : World} {a : Who} {u g p q : Nat} (h : 146 &&& p = 146 &&& q) : allowed w a u g p = allowed w a u g q := by
  unfold allowed Access.check
  dsimp only
  rw [h]

theorem bits_or (p : Nat) : 146 &&& (p ||| 512) = 146 &&& p := by
  rw [Nat.and_or_distrib_left]
  simp

theorem bits_and (p : Nat) : 146 &&& (p &&& 4294966783) = 146 &&& p := by
  rw [Nat.and_comm p, ← Nat.and_assoc]
  rfl

section
variable {w : World}

theorem find_there {α : Type} {l : List α} {f : α → Str} {n : Str} (h : ∃ p ∈ l, f p = n) :
    ∃ p, (l.find? fun p => f p = n) = some p ∧ p ∈ l ∧ f p = n := by
  cases e : l.find? fun p => f p = n with
  | none =>
    obtain ⟨p, h1, h2⟩ := h
    have := List.find?_eq_none.1 e p h1
    simp [h2] at this
  | some p => exact ⟨p, rfl, List.mem_of_find?_eq_some e, by simpa using List.find?_some e⟩

/-- all producers of the list are started -/
theorem start_prds : ∀ (xs : List (Str × Bool)) (d : Daemon), (∀ x ∈ xs, x.2 = false) → (xs.map (·.1)).Nodup →
    (∀ x ∈ xs, ∃ p ∈ d.prds, p.name = x.1) →
    (∀ p ∈ d.prds, p.name ∈ xs.map (·.1) → allowed w w.who p.uid p.gid p.perm = true ∧ p.conn = .stopped) →
    each (startPrdcr w) d xs = ({ d with prds := d.prds.map fun p => if p.name ∈ xs.map (·.1) then goPrdcr p else p },
      xs.map fun x => (x.1, true))
  | [], d, _, _, _, _ => by simp [each]
  | x :: xs, d, h1, h2, h3, h4 => by
    rw [List.map_cons, List.nodup_cons] at h2
    obtain ⟨p, hf, hp, hn⟩ := find_there (f := fun p : Prdcr => p.name) (h3 x (by simp))
    have ha := h4 p hp (by simp [hn])
    have e : startPrdcr w d x = (d.setPrdcr x.1 goPrdcr, (x.1, true)) := by
      unfold startPrdcr
      rw [if_neg (by simp [h1 x (by simp)]), hf]
      dsimp only
      rw [if_pos ha]
      rfl
    rw [each, e]
    dsimp only
    rw [start_prds xs (d.setPrdcr x.1 goPrdcr) (fun y hy => h1 y (by simp [hy])) h2.2 (by
        intro y hy
        obtain ⟨q, hq, hqn⟩ := h3 y (by simp [hy])
        refine ⟨if q.name = x.1 then goPrdcr q else q, List.mem_map_of_mem hq, ?_⟩
        split
        · exact hqn
        · exact hqn) (by
        intro q hq hqn
        obtain ⟨r, hr, rfl⟩ := List.mem_map.1 hq
        by_cases c : r.name = x.1
        · rw [if_pos c] at hqn
          exact absurd (show x.1 ∈ xs.map (·.1) by rw [← c]; exact hqn) h2.1
        · rw [if_neg c] at hqn ⊢
          exact h4 r hr (by simp only [List.map_cons, List.mem_cons]; exact .inr hqn))]
    simp only [Daemon.setPrdcr, List.map_map, List.map_cons, Prod.mk.injEq, and_true]
    congr 1
    refine List.map_congr_left fun q _ => ?_
    simp only [Function.comp, List.mem_cons]
    by_cases c : q.name = x.1
    · have : (goPrdcr q).name ∉ xs.map (·.1) := by show q.name ∉ _; rw [c]; exact h2.1
      rw [if_pos c, if_neg this, if_pos (.inl c)]
    · simp [c]

/-- all updaters of the list are started -/
theorem start_ups : ∀ (xs : List (Str × Bool)) (d : Daemon), (∀ x ∈ xs, x.2 = false) → (xs.map (·.1)).Nodup →
    (∀ x ∈ xs, ∃ p ∈ d.ups, p.name = x.1) →
    (∀ p ∈ d.ups, p.name ∈ xs.map (·.1) → allowed w w.who p.uid p.gid p.perm = true ∧ p.running = false) →
    each (startUpdtr w) d xs = ({ d with ups := d.ups.map fun p => if p.name ∈ xs.map (·.1) then goUpdtr w p else p },
      xs.map fun x => (x.1, true))
  | [], d, _, _, _, _ => by simp [each]
  | x :: xs, d, h1, h2, h3, h4 => by
    rw [List.map_cons, List.nodup_cons] at h2
    obtain ⟨p, hf, hp, hn⟩ := find_there (f := fun p : Updtr => p.name) (h3 x (by simp))
    have ha := h4 p hp (by simp [hn])
    have e : startUpdtr w d x = (d.setUpdtr x.1 (goUpdtr w), (x.1, true)) := by
      unfold startUpdtr
      rw [if_neg (by simp [h1 x (by simp)]), hf]
      dsimp only
      rw [if_pos ha]
      rfl
    rw [each, e]
    dsimp only
    rw [start_ups xs (d.setUpdtr x.1 (goUpdtr w)) (fun y hy => h1 y (by simp [hy])) h2.2 (by
        intro y hy
        obtain ⟨q, hq, hqn⟩ := h3 y (by simp [hy])
        refine ⟨if q.name = x.1 then goUpdtr w q else q, List.mem_map_of_mem hq, ?_⟩
        split
        · exact hqn
        · exact hqn) (by
        intro q hq hqn
        obtain ⟨r, hr, rfl⟩ := List.mem_map.1 hq
        by_cases c : r.name = x.1
        · rw [if_pos c] at hqn
          exact absurd (show x.1 ∈ xs.map (·.1) by rw [← c]; exact hqn) h2.1
        · rw [if_neg c] at hqn ⊢
          exact h4 r hr (by simp only [List.map_cons, List.mem_cons]; exact .inr hqn))]
    simp only [Daemon.setUpdtr, List.map_map, List.map_cons, Prod.mk.injEq, and_true]
    congr 1
    refine List.map_congr_left fun q _ => ?_
    simp only [Function.comp, List.mem_cons]
    by_cases c : q.name = x.1
    · have : (goUpdtr w q).name ∉ xs.map (·.1) := by show q.name ∉ _; rw [c]; exact h2.1
      rw [if_pos c, if_neg this, if_pos (.inl c)]
    · simp [c]

/-- producers and updaters that are stopped again -/
def haltPrdcr (p : Prdcr) : Prdcr := { p with
  conn := if p.conn = .connected then .stopping else .stopped
  perm := p.perm &&& 4294966783 }

def haltUpdtr (u : Updtr) : Updtr := { u with
  running := false
  perm := u.perm &&& 4294966783 }

theorem stop_prds : ∀ (xs : List (Str × Bool)) (d : Daemon), (∀ x ∈ xs, x.2 = true) → (xs.map (·.1)).Nodup →
    (∀ x ∈ xs, ∃ p ∈ d.prds, p.name = x.1) →
    (∀ p ∈ d.prds, p.name ∈ xs.map (·.1) → allowed w w.who p.uid p.gid p.perm = true ∧ p.conn ≠ .stopping ∧ p.conn ≠ .stopped) →
    each (stopPrdcr w) d xs = ({ d with prds := d.prds.map fun p => if p.name ∈ xs.map (·.1) then haltPrdcr p else p },
      xs.map fun x => (x.1, false))
  | [], d, _, _, _, _ => by simp [each]
  | x :: xs, d, h1, h2, h3, h4 => by
    rw [List.map_cons, List.nodup_cons] at h2
    obtain ⟨p, hf, hp, hn⟩ := find_there (f := fun p : Prdcr => p.name) (h3 x (by simp))
    have ha := h4 p hp (by simp [hn])
    have e : stopPrdcr w d x = (d.setPrdcr x.1 haltPrdcr, (x.1, false)) := by
      unfold stopPrdcr
      rw [if_neg (by simp [h1 x (by simp)]), hf]
      dsimp only
      rw [if_neg (by simp [ha.1, ha.2.1]), if_neg ha.2.2]
      rfl
    rw [each, e]
    dsimp only
    rw [stop_prds xs (d.setPrdcr x.1 haltPrdcr) (fun y hy => h1 y (by simp [hy])) h2.2 (by
        intro y hy
        obtain ⟨q, hq, hqn⟩ := h3 y (by simp [hy])
        refine ⟨if q.name = x.1 then haltPrdcr q else q, List.mem_map_of_mem hq, ?_⟩
        split
        · exact hqn
        · exact hqn) (by
        intro q hq hqn
        obtain ⟨r, hr, rfl⟩ := List.mem_map.1 hq
        by_cases c : r.name = x.1
        · rw [if_pos c] at hqn
          exact absurd (show x.1 ∈ xs.map (·.1) by rw [← c]; exact hqn) h2.1
        · rw [if_neg c] at hqn ⊢
          exact h4 r hr (by simp only [List.map_cons, List.mem_cons]; exact .inr hqn))]
    simp only [Daemon.setPrdcr, List.map_map, List.map_cons, Prod.mk.injEq, and_true]
    congr 1
    refine List.map_congr_left fun q _ => ?_
    simp only [Function.comp, List.mem_cons]
    by_cases c : q.name = x.1
    · have : (haltPrdcr q).name ∉ xs.map (·.1) := by show q.name ∉ _; rw [c]; exact h2.1
      rw [if_pos c, if_neg this, if_pos (.inl c)]
    · simp [c]

theorem stop_ups : ∀ (xs : List (Str × Bool)) (d : Daemon), (∀ x ∈ xs, x.2 = true) → (xs.map (·.1)).Nodup →
    (∀ x ∈ xs, ∃ p ∈ d.ups, p.name = x.1) →
    (∀ p ∈ d.ups, p.name ∈ xs.map (·.1) → allowed w w.who p.uid p.gid p.perm = true ∧ p.running = true) →
    each (stopUpdtr w) d xs = ({ d with ups := d.ups.map fun p => if p.name ∈ xs.map (·.1) then haltUpdtr p else p },
      xs.map fun x => (x.1, false))
  | [], d, _, _, _, _ => by simp [each]
  | x :: xs, d, h1, h2, h3, h4 => by
    rw [List.map_cons, List.nodup_cons] at h2
    obtain ⟨p, hf, hp, hn⟩ := find_there (f := fun p : Updtr => p.name) (h3 x (by simp))
    have ha := h4 p hp (by simp [hn])
    have e : stopUpdtr w d x = (d.setUpdtr x.1 haltUpdtr, (x.1, false)) := by
      unfold stopUpdtr
      rw [if_neg (by simp [h1 x (by simp)]), hf]
      dsimp only
      rw [if_neg (by simp [ha.1]), if_neg (by simp [ha.2])]
      rfl
    rw [each, e]
    dsimp only
    rw [stop_ups xs (d.setUpdtr x.1 haltUpdtr) (fun y hy => h1 y (by simp [hy])) h2.2 (by
        intro y hy
        obtain ⟨q, hq, hqn⟩ := h3 y (by simp [hy])
        refine ⟨if q.name = x.1 then haltUpdtr q else q, List.mem_map_of_mem hq, ?_⟩
        split
        · exact hqn
        · exact hqn) (by
        intro q hq hqn
        obtain ⟨r, hr, rfl⟩ := List.mem_map.1 hq
        by_cases c : r.name = x.1
        · rw [if_pos c] at hqn
          exact absurd (show x.1 ∈ xs.map (·.1) by rw [← c]; exact hqn) h2.1
        · rw [if_neg c] at hqn ⊢
          exact h4 r hr (by simp only [List.map_cons, List.mem_cons]; exact .inr hqn))]
    simp only [Daemon.setUpdtr, List.map_map, List.map_cons, Prod.mk.injEq, and_true]
    congr 1
    refine List.map_congr_left fun q _ => ?_
    simp only [Function.comp, List.mem_cons]
    by_cases c : q.name = x.1
    · have : (haltUpdtr q).name ∉ xs.map (·.1) := by show q.name ∉ _; rw [c]; exact h2.1
      rw [if_pos c, if_neg this, if_pos (.inl c)]
    · simp [c]

/-- nothing to stop -/
theorem stop_none : ∀ (xs : List (Str × Bool)) (d : Daemon), (∀ x ∈ xs, x.2 = false) →
    each (stopPrdcr w) d xs = (d, xs) ∧ each (stopUpdtr w) d xs = (d, xs)
  | [], d, _ => ⟨rfl, rfl⟩
  | x :: xs, d, h => by
    have h1 : stopPrdcr w d x = (d, x) := by unfold stopPrdcr; rw [if_pos (h x (by simp))]
    have h2 : stopUpdtr w d x = (d, x) := by unfold stopUpdtr; rw [if_pos (h x (by simp))]
    have ih := stop_none xs d fun y hy => h y (by simp [hy])
    exact ⟨by rw [each, h1]; simp [ih.1], by rw [each, h2]; simp [ih.2]⟩

theorem filter_rest {α : Type} (f : α → Str) (n : Str) (ns : List Str) (l : List α) :
    (l.filter fun p => f p ≠ n).filter (fun p => f p ∉ ns) = l.filter fun p => f p ∉ n :: ns := by
  rw [List.filter_filter]
  refine List.filter_congr fun q _ => ?_
  by_cases c : f q = n <;> simp [c]

/-- all updaters of the list are deleted -/
theorem del_ups : ∀ (xs : List (Str × Bool)) (d : Daemon), (xs.map (·.1)).Nodup → (∀ x ∈ xs, ∃ p ∈ d.ups, p.name = x.1) →
    (∀ p ∈ d.ups, p.name ∈ xs.map (·.1) → allowed w w.who p.uid p.gid p.perm = true ∧ p.running = false) →
    delUps w xs d = ({ d with
      ups := d.ups.filter fun u => u.name ∉ xs.map (·.1)
      peerUps := [] }, true)
  | [], d, _, _, _ => by simp only [delUps]; rw [List.filter_eq_self.2 (by simp)]
  | x :: xs, d, h2, h3, h4 => by
    rw [List.map_cons, List.nodup_cons] at h2
    obtain ⟨p, hf, hp, hn⟩ := find_there (f := fun p : Updtr => p.name) (h3 x (by simp))
    rw [delUps, hf]
    dsimp only
    rw [if_pos (h4 p hp (by simp [hn]))]
    rw [del_ups xs { d with ups := d.ups.filter fun u => u.name ≠ x.1 } h2.2 (by
        intro y hy
        obtain ⟨q, hq, hqn⟩ := h3 y (by simp [hy])
        refine ⟨q, List.mem_filter.2 ⟨hq, ?_⟩, hqn⟩
        have : q.name ≠ x.1 := fun e => h2.1 (by rw [← e, hqn]; exact List.mem_map_of_mem hy)
        simpa using this) (fun q hq hqn => h4 q (List.mem_filter.1 hq).1 (by simp only [List.map_cons, List.mem_cons]; exact .inr hqn))]
    dsimp only
    rw [filter_rest (fun u : Updtr => u.name)]
    rfl

/-- all producers of the list are deleted -/
theorem del_prds : ∀ (xs : List (Str × Bool)) (d : Daemon), (xs.map (·.1)).Nodup → (∀ x ∈ xs, ∃ p ∈ d.prds, p.name = x.1) →
    (∀ p ∈ d.prds, p.name ∈ xs.map (·.1) → allowed w w.who p.uid p.gid p.perm = true ∧ p.conn = .stopped) →
    (∀ u ∈ d.ups, ∀ n ∈ u.prdcrs, n ∉ xs.map (·.1)) →
    delPrds w xs d = { d with
      prds := d.prds.filter fun p => p.name ∉ xs.map (·.1)
      peerPrds := [] }
  | [], d, _, _, _, _ => by simp only [delPrds]; rw [List.filter_eq_self.2 (by simp)]
  | x :: xs, d, h2, h3, h4, h5 => by
    rw [List.map_cons, List.nodup_cons] at h2
    obtain ⟨p, hf, hp, hn⟩ := find_there (f := fun p : Prdcr => p.name) (h3 x (by simp))
    rw [delPrds, hf]
    dsimp only
    have ha := h4 p hp (by simp [hn])
    have hu : (d.ups.any fun u => x.1 ∈ u.prdcrs) = false := by
      rw [← Bool.not_eq_true, List.any_eq_true]
      rintro ⟨u, hu, hx⟩
      exact h5 u hu x.1 (by simpa using hx) (by simp)
    rw [if_pos ⟨ha.1, ha.2, hu⟩]
    rw [del_prds xs { d with prds := d.prds.filter fun u => u.name ≠ x.1 } h2.2 (by
        intro y hy
        obtain ⟨q, hq, hqn⟩ := h3 y (by simp [hy])
        refine ⟨q, List.mem_filter.2 ⟨hq, ?_⟩, hqn⟩
        have : q.name ≠ x.1 := fun e => h2.1 (by rw [← e, hqn]; exact List.mem_map_of_mem hy)
        simpa using this) (fun q hq hqn => h4 q (List.mem_filter.1 hq).1 (by simp only [List.map_cons, List.mem_cons]; exact .inr hqn))
        (fun u hu n hn hx => h5 u hu n hn (by simp only [List.map_cons, List.mem_cons]; exact .inr hx))]
    dsimp only
    rw [filter_rest (fun u : Prdcr => u.name)]
    rfl

end

end Verif.PeerCfg
