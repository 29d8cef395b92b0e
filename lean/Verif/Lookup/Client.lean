import Verif.Lookup.Spec

/-! # The daemon that asks -/

namespace Verif.Lookup

variable {W : World}

/-- The reads under way, of the sets `P`, when `todo` are still to come. -/
def pend : List SetR → List SetR → List (Text × Bool)
  | [], _ => []
  | s :: P, todo => (s.name, !(P ++ todo).isEmpty) :: pend P todo

theorem pend_snoc (P : List SetR) (s : SetR) (todo : List SetR) :
    pend (P ++ [s]) todo = pend P (s :: todo) ++ [(s.name, !todo.isEmpty)] := by
  induction P with
  | nil => rfl
  | cons t P ih => simp [pend, ih]

theorem flagged_cons (s : SetR) (l : List SetR) : flagged (s :: l) = .share s (!l.isEmpty) :: flagged l := by
  cases l <;> rfl

/-- The state when the calls for `D` have been made, the sets `P` are being read and `todo` are to come. -/
structure Inv (W : World) (h0 : List Text) (c : Client) (D P todo : List SetR) : Prop where
  ok : c.fault = none
  live : c.live = !todo.isEmpty
  rail : c.rail = !(P ++ todo).isEmpty
  reads : c.reads = pend P todo
  calls : told W (D ++ (P ++ todo)) = c.calls ++ told W (P ++ todo)
  held : ∀ x, x ∈ c.held ↔ x ∈ h0 ∨ (∃ s ∈ D, W.readOk s.name = true ∧ x = s.name) ∨ ∃ s ∈ P, x = s.name

theorem Inv.start (h0 : List Text) (l : List SetR) (hl : l ≠ []) : Inv W h0 (asked h0) [] [] l := by
  cases l with
  | nil => exact absurd rfl hl
  | cons s l => exact ⟨rfl, rfl, rfl, rfl, rfl, by simp [asked]⟩

theorem Inv.message {h0 : List Text} {c : Client} {D P todo : List SetR} {s : SetR}
    (h : Inv W h0 c D P (s :: todo)) (hn : s.name ∉ c.held)
    (hc : W.createRc s.name = 0) (hr : W.readRc s.name = 0) :
    Inv W h0 (step W c (.message (.share s (!todo.isEmpty)))) D (P ++ [s]) todo := by
  have h1 : step W c (.message (.share s (!todo.isEmpty))) =
      { c with held := s.name :: c.held, reads := c.reads ++ [(s.name, !todo.isEmpty)], live := !todo.isEmpty } := by
    simp [step, h.ok, rendezvous, hn, hc, hr, h.live]
  rw [h1]
  refine ⟨h.ok, rfl, ?_, ?_, ?_, ?_⟩
  · simp [h.rail]
  · simp only [h.reads, pend_snoc]
  · simpa using h.calls
  · intro x
    simp only [List.mem_cons, h.held, List.mem_append, List.not_mem_nil, or_false]
    constructor
    · rintro (rfl | g | g | ⟨t, ht, g⟩)
      · exact .inr (.inr ⟨s, .inr rfl, rfl⟩)
      · exact .inl g
      · exact .inr (.inl g)
      · exact .inr (.inr ⟨t, .inl ht, g⟩)
    · rintro (g | g | ⟨t, ht | rfl, g⟩)
      · exact .inr (.inl g)
      · exact .inr (.inr (.inl g))
      · exact .inr (.inr (.inr ⟨t, ht, g⟩))
      · exact .inl g

theorem Inv.read_nil {h0 : List Text} {c : Client} {D todo : List SetR} (h : Inv W h0 c D [] todo) :
    step W c .read = c := by
  simp [step, h.ok, readDone, h.reads, pend]

theorem Inv.read_cons {h0 : List Text} {c : Client} {D P todo : List SetR} {s : SetR}
    (h : Inv W h0 c D (s :: P) todo) (hnh : s.name ∉ h0) (hnd : ∀ t ∈ D, t.name ≠ s.name)
    (hnp : ∀ t ∈ P, t.name ≠ s.name) : Inv W h0 (step W c .read) (D ++ [s]) P todo := by
  have hrail : c.rail = true := by rw [h.rail]; simp
  have hcalls := h.calls
  simp only [List.cons_append, told] at hcalls
  cases hok : W.readOk s.name with
  | true =>
    have h1 : step W c .read = { c with
        reads := pend P todo
        calls := c.calls ++ [⟨0, !(P ++ todo).isEmpty, some s.name⟩]
        rail := !(P ++ todo).isEmpty } := by
      simp [step, h.ok, readDone, h.reads, pend, hok, callback, hrail]
    rw [h1]
    rw [hok] at hcalls
    refine ⟨h.ok, h.live, rfl, rfl, ?_, ?_⟩
    · simpa using hcalls
    · intro x
      simp only [h.held, List.mem_append, List.mem_cons, List.not_mem_nil, or_false]
      constructor
      · rintro (g | ⟨t, ht, g⟩ | ⟨t, rfl | ht, g⟩)
        · exact .inl g
        · exact .inr (.inl ⟨t, .inl ht, g⟩)
        · exact .inr (.inl ⟨t, .inr rfl, hok, g⟩)
        · exact .inr (.inr ⟨t, ht, g⟩)
      · rintro (g | ⟨t, ht | rfl, g⟩ | ⟨t, ht, g⟩)
        · exact .inl g
        · exact .inr (.inl ⟨t, ht, g⟩)
        · exact .inr (.inr ⟨t, .inl rfl, g.2⟩)
        · exact .inr (.inr ⟨t, .inr ht, g⟩)
  | false =>
    have h1 : step W c .read = { c with
        reads := pend P todo
        held := c.held.filter (· ≠ s.name)
        calls := c.calls ++ [⟨EREMOTEIO, !(P ++ todo).isEmpty, none⟩]
        rail := !(P ++ todo).isEmpty } := by
      simp [step, h.ok, readDone, h.reads, pend, hok, callback, hrail]
    rw [h1]
    rw [hok] at hcalls
    refine ⟨h.ok, h.live, rfl, rfl, ?_, ?_⟩
    · simpa using hcalls
    · intro x
      simp only [List.mem_filter, h.held, List.mem_append, List.mem_cons, List.not_mem_nil, or_false,
        ne_eq, decide_not, Bool.not_eq_true', decide_eq_false_iff_not]
      constructor
      · rintro ⟨g | ⟨t, ht, g⟩ | ⟨t, rfl | ht, g⟩, hx⟩
        · exact .inl g
        · exact .inr (.inl ⟨t, .inl ht, g⟩)
        · exact absurd g hx
        · exact .inr (.inr ⟨t, ht, g⟩)
      · rintro (g | ⟨t, ht | rfl, g⟩ | ⟨t, ht, g⟩)
        · exact ⟨.inl g, fun hx => hnh (hx ▸ g)⟩
        · exact ⟨.inr (.inl ⟨t, ht, g⟩), fun hx => hnd t ht (g.2 ▸ hx)⟩
        · rw [hok] at g; exact absurd g.1 Bool.false_ne_true
        · exact ⟨.inr (.inr ⟨t, .inr ht, g⟩), fun hx => hnp t ht (g ▸ hx)⟩

/-- Any order of messages and reads. -/
theorem Inv.run {h0 : List Text} {c : Client} {D P todo : List SetR} (evs : List Ev) (rest : List Msg)
    (h : Inv W h0 c D P todo) (hev : arrived evs ++ rest = flagged todo)
    (hnd : ((D ++ (P ++ todo)).map SetR.name).Nodup)
    (hnh : ∀ s ∈ D ++ (P ++ todo), s.name ∉ h0)
    (hw : ∀ s ∈ todo, W.createRc s.name = 0 ∧ W.readRc s.name = 0) :
    ∃ D' P' todo', D' ++ (P' ++ todo') = D ++ (P ++ todo) ∧ flagged todo' = rest ∧
      Inv W h0 (Lookup.run W c evs) D' P' todo' := by
  induction evs generalizing c D P todo with
  | nil => exact ⟨D, P, todo, rfl, by simpa [arrived] using hev.symm, h⟩
  | cons e evs ih =>
    cases e with
    | message m =>
      cases todo with
      | nil => simp [arrived, flagged] at hev
      | cons s todo =>
        rw [flagged_cons] at hev
        simp only [arrived, List.cons_append, List.cons.injEq] at hev
        obtain ⟨rfl, hev⟩ := hev
        have e1 : D ++ ((P ++ [s]) ++ todo) = D ++ (P ++ s :: todo) := by simp
        have hs : s.name ∉ c.held := by
          rw [h.held]
          rintro (hx | ⟨t, ht, -, hx⟩ | ⟨t, ht, hx⟩)
          · exact hnh s (by simp) hx
          · rw [List.map_append, List.nodup_append] at hnd
            exact hnd.2.2 t.name (List.mem_map_of_mem ht) s.name (by simp) hx.symm
          · rw [List.map_append, List.nodup_append, List.map_append, List.nodup_append] at hnd
            exact hnd.2.1.2.2 t.name (List.mem_map_of_mem ht) s.name (by simp) hx.symm
        obtain ⟨hc, hr⟩ := hw s List.mem_cons_self
        have := ih (h.message hs hc hr) hev (by rw [e1]; exact hnd) (by rw [e1]; exact hnh)
          (fun t ht => hw t (List.mem_cons_of_mem _ ht))
        rw [e1] at this
        exact this
    | read =>
      cases P with
      | nil =>
        have : Lookup.run W c (.read :: evs) = Lookup.run W c evs := by
          simp only [Lookup.run, List.foldl_cons, h.read_nil]
        rw [this]
        exact ih h hev hnd hnh hw
      | cons s P =>
        have e1 : (D ++ [s]) ++ (P ++ todo) = D ++ ((s :: P) ++ todo) := by simp
        have hnd' := hnd
        rw [List.map_append, List.nodup_append] at hnd'
        have h2 := hnd'.2.1
        rw [List.cons_append, List.map_cons, List.nodup_cons] at h2
        have := ih (h.read_cons (hnh s (by simp))
            (fun t ht => hnd'.2.2 t.name (List.mem_map_of_mem ht) s.name (by simp))
            (fun t ht he => h2.1 (by rw [← he]; exact List.mem_map_of_mem (List.mem_append_left _ ht))))
          hev (by rw [e1]; exact hnd) (by rw [e1]; exact hnh) hw
        rw [e1] at this
        exact this

end Verif.Lookup
