import Verif.StreamSub.Proofs

/-!
# C18: every message reaches each current matching subscriber exactly once

Clients may subscribe and close, and other messages may be published, at any moment of a delivery.
-/

namespace Verif.StreamSub

/-- client `c` is open and its subscription covers stream `name` -/
def Subscribed (st : St) (c name : Nat) : Prop :=
  ∃ k, st.clients[c]? = some k ∧ k.isOpen = true ∧ k.m.covers name = true

/-- number of callbacks made to `c` by delivery `id` -/
def got (st : St) (id c : Nat) : Nat := st.log.count (id, c)

theorem subscribed_iff {st : St} {c name : Nat} : Subscribed st c name ↔
    (opn st.clients c = true ∧ covers st.clients c name = true) := by
  unfold Subscribed opn covers
  cases st.clients[c]? with
  | none => simp
  | some k => simp

/-- the delivery ends here, having gone through the whole list -/
def Completes (st : St) (d : Del) : Prop :=
  ∃ s, st.streams.find? (fun s => s.name = d.name) = some s ∧ gone s.ents d.cur = false ∧ after s.ents d.cur = []

/-- **C18, at most once.** In every state, no delivery has called the same client twice. -/
theorem stream_at_most_once {st : St} (hr : Reachable st) (id c : Nat) : got st id c ≤ 1 :=
  List.nodup_iff_count.1 hr.inv.lognd (id, c)

/-- **C18, only subscribers.** A running delivery has called only clients whose subscription covers the stream
and that were not already closed when it began. -/
theorem stream_only_subscribers {st : St} (hr : Reachable st) {d : Del} (hd : d ∈ st.dels) {c : Nat}
    (h : 1 ≤ got st d.id c) : (∃ k, st.clients[c]? = some k ∧ k.m.covers d.name = true) ∧ c ∉ d.closed := by
  have := (hr.inv.dok d hd).lo c (List.count_pos_iff.1 h)
  refine ⟨?_, this.2.2⟩
  have hc := this.2.1
  unfold covers at hc
  split at hc
  · rename_i k hk; exact ⟨k, hk, hc⟩
  · cases hc

/-- what `closed` of a delivery means: it is fixed at the beginning as the closed clients -/
theorem begin_closed {st : St} (n : Nat) (b : Bool) : ∃ d ∈ (begin st n b).dels, d.name = n ∧ d.cur = none ∧
    ∀ c, c ∈ d.closed ↔ ∃ k, st.clients[c]? = some k ∧ k.isOpen = false := by
  have hc : (streamGet st n).clients = st.clients := by unfold streamGet; split <;> rfl
  refine ⟨_, List.mem_cons_self, rfl, rfl, ?_⟩
  intro c
  simp only [closedIds, hc, List.mem_filter, List.mem_range]
  constructor
  · rintro ⟨h1, h2⟩
    split at h2
    · rename_i k hk; exact ⟨k, hk, by simpa using h2⟩
    · cases h2
  · rintro ⟨k, hk, ho⟩
    refine ⟨(List.getElem?_eq_some_iff.1 hk).1, ?_⟩
    rw [hk]; simp [ho]

/-- **C18, exactly once.** When a delivery has gone through its list, every client that is then open and covers
the stream (in particular everyone who subscribed before and did not close meanwhile, whether before or after the
stream first appeared) has been called exactly once.
Missing: malformed JSON data (`stream_bad_json_stops_defect`) and deliveries that run into a freed entry
(`stream_concurrent_close_defect`); those do not complete. -/
theorem stream_exactly_once_partial {st : St} (hr : Reachable st) {d : Del} (hd : d ∈ st.dels)
    (hc : Completes st d) {c : Nat} (hs : Subscribed st c d.name) : got st d.id c = 1 := by
  have hi := hr.inv
  obtain ⟨s, hf, hg, ha⟩ := hc
  have hsm := List.mem_of_find?_eq_some hf
  have hsn : s.name = d.name := by simpa using List.find?_some hf
  have ho := hi.sok s hsm
  have hk := guard_false (ents := s.ents) (cur := d.cur) (by rw [hg]; simp)
  have hal : (c, true) ∈ s.ents := by
    rw [ho.alive, hsn]; exact subscribed_iff.1 hs
  have hmem : (d.id, c) ∈ st.log := by
    cases hcur : d.cur with
    | none =>
      rw [hcur] at ha
      simp only [after] at ha
      rw [ha] at hal; simp at hal
    | some k =>
      rw [hcur] at ha
      rw [after_some _ ho.sorted (hk k hcur), List.filter_eq_nil_iff] at ha
      have := ha _ hal
      simp only [decide_eq_true_eq, Nat.not_lt] at this
      exact (hi.dok d hd).hi s hsm hsn c k hal hcur this
  have h1 := List.count_pos_iff.2 hmem
  have h2 := stream_at_most_once hr d.id c
  unfold got at *
  omega

/-- **C18, the subscription table.** For each existing stream the bound entries are exactly the open clients
that cover it. -/
theorem stream_entries_iff {st : St} (hr : Reachable st) {s : Stream} (hs : s ∈ st.streams) (c : Nat) :
    (c, true) ∈ s.ents ↔ Subscribed st c s.name := by
  rw [(hr.inv.sok s hs).alive, subscribed_iff]

/-- one loop round either ends the delivery or leaves fewer entries to go -/
def togo (st : St) (d : Del) : Nat :=
  match st.streams.find? (fun s => s.name = d.name) with
  | some s => (after s.ents d.cur).length
  | none => 0

/-- **C18, deliveries on their own are well defined and end.** With no unbound entry swept by another delivery
(in particular when only one delivery is running), a delivery whose current entry is in its stream's list is
never stuck and every round brings it closer to the end. -/
theorem stream_delivery_progress {st : St} (hr : Reachable st) {d : Del} (hd : d ∈ st.dels)
    (hg : ∀ s ∈ st.streams, s.name = d.name → gone s.ents d.cur = false) :
    ∃ st', next st d.id = .ok st' ∧ ((∀ x ∈ st'.dels, x.id ≠ d.id) ∨
      ∃ d' ∈ st'.dels, d'.id = d.id ∧ d'.name = d.name ∧ togo st' d' < togo st d ∧
        ∀ s ∈ st'.streams, s.name = d.name → gone s.ents d'.cur = false) := by
  have hi := hr.inv
  have hfd : st.dels.find? (fun x => decide (x.id = d.id)) = some d := by
    cases hf : st.dels.find? (fun x => decide (x.id = d.id)) with
    | none => rw [List.find?_eq_none] at hf; exact absurd (by simp) (hf d hd)
    | some x =>
      have h1 := List.mem_of_find?_eq_some hf
      have h2 : x.id = d.id := by simpa using List.find?_some hf
      rw [id_unique hi.dids h1 hd h2]
  obtain ⟨s, hs, hsn⟩ := (hi.dok d hd).ex
  have hfs : st.streams.find? (fun x => decide (x.name = d.name)) = some s := by
    cases hf : st.streams.find? (fun x => decide (x.name = d.name)) with
    | none => rw [List.find?_eq_none] at hf; exact absurd (by simp [hsn]) (hf s hs)
    | some x =>
      have h1 := List.mem_of_find?_eq_some hf
      have h2 : x.name = d.name := by simpa using List.find?_some hf
      rw [name_unique hi.names h1 hs (h2.trans hsn.symm)]
  have ho := hi.sok s hs
  have hgs := hg s hs hsn
  have hk := guard_false (ents := s.ents) (cur := d.cur) (by rw [hgs]; simp)
  have hmove : ∀ (c : Nat) (b g : Bool) (r : List (Nat × Bool)) (lg : List (Nat × Nat)),
      after s.ents d.cur = (c, b) :: r →
      ∃ d' ∈ (St.dels { setDel st { d with cur := some c, gc := g } with log := lg }), d'.id = d.id ∧ d'.name = d.name ∧
        togo { setDel st { d with cur := some c, gc := g } with log := lg } d' < togo st d ∧
        ∀ s' ∈ (St.streams { setDel st { d with cur := some c, gc := g } with log := lg }), s'.name = d.name →
          gone s'.ents d'.cur = false := by
    intro c b g r lg ha
    obtain ⟨a1, a2, a3⟩ := after_head ho.sorted hk ha
    refine ⟨{ d with cur := some c, gc := g }, ?_, rfl, rfl, ?_, ?_⟩
    · simp only [setDel]
      exact List.mem_map.2 ⟨d, hd, by simp⟩
    · unfold togo
      simp only [setDel, hfs, ha]
      rw [after_some _ ho.sorted (List.mem_map_of_mem (f := (·.1)) a1)]
      cases hcur : d.cur with
      | none =>
        rw [hcur] at ha; simp only [after] at ha
        rw [ha, List.filter_cons, if_neg (by simp)]
        exact Nat.lt_succ_of_le (List.length_filter_le _ _)
      | some k =>
        have hkc := a2 k hcur
        rw [hcur, after_some _ ho.sorted (hk k hcur)] at ha
        rw [← ha]
        have : s.ents.filter (fun x => decide (c < x.1)) =
            (s.ents.filter (fun x => decide (k < x.1))).filter (fun x => decide (c < x.1)) := by
          rw [List.filter_filter]
          apply List.filter_congr
          intro x _
          rw [Bool.eq_iff_iff]
          simp only [Bool.and_eq_true, decide_eq_true_eq]
          omega
        rw [this, ha, List.filter_cons, if_neg (by simp)]
        exact Nat.lt_succ_of_le (List.length_filter_le _ _)
    · intro s' hs' hn'
      have : s' = s := name_unique hi.names hs' hs (hn'.trans hsn.symm)
      subst this
      simp only [gone]
      rw [Bool.eq_false_iff]
      intro hall
      rw [List.all_eq_true] at hall
      have := hall _ a1
      simp at this
  have hfin : ∀ x ∈ (finish st d).dels, x.id ≠ d.id := by
    intro x hx
    have := (List.mem_filter.1 hx).2
    simpa using this
  unfold next
  rw [hfd]
  simp only
  rw [hfs]
  simp only [hgs, Bool.false_eq_true, if_false]
  match ha : after s.ents d.cur with
  | [] => exact ⟨_, rfl, Or.inl hfin⟩
  | (c, false) :: r => exact ⟨_, rfl, Or.inr (hmove c false true r st.log ha)⟩
  | (c, true) :: r =>
    simp only
    split
    · exact ⟨_, rfl, Or.inl hfin⟩
    · exact ⟨_, rfl, Or.inr (hmove c true d.gc r ((d.id, c) :: st.log) ha)⟩

/-- **Defect.** Malformed JSON data is delivered to nobody from the first local client on, so whether a remote
client gets it depends on the order of subscription. -/
theorem stream_bad_json_stops_defect : ∃ st, run init
    [.subscribe (.exact 7) false, .subscribe (.exact 7) true, .subscribe (.exact 7) false, .begin 7 true,
     .next 0, .next 0] = .ok st ∧ st.dels.length = 0 ∧ got st 0 0 = 1 ∧ got st 0 1 = 0 ∧ got st 0 2 = 0 :=
  ⟨_, rfl, rfl, rfl, rfl, rfl⟩

/-- **Defect.** While a delivery is in client 0's callback, the client is closed and a second message on the
same stream goes through: its clean-up frees the entry the first delivery stands on. -/
theorem stream_concurrent_close_defect : run init
    [.subscribe (.exact 7) true, .subscribe (.exact 7) true, .begin 7 false, .next 0, .close 0, .begin 7 false,
     .next 1, .next 1, .next 1, .next 0] = .ub := rfl

/-! ## A run that meets the hypotheses: an exact client, a pattern client subscribed before the stream exists,
one that is closed, and one that subscribes during the delivery -/

def demo : List Act :=
  [.subscribe (.regex (fun n => n % 2 = 1)) true, .subscribe (.exact 8) true, .subscribe (.exact 7) true, .close 2,
   .subscribe (.exact 7) false, .begin 7 false, .next 0, .subscribe (.exact 7) true, .next 0, .next 0, .next 0]
def demoSt : St := match run init demo with | .ok s => s | _ => init
example : Reachable demoSt := ⟨demo, rfl⟩
example : demoSt.log.reverse = [(0, 0), (0, 3), (0, 4)] := by decide
example : ∃ d ∈ demoSt.dels, Completes demoSt d :=
  ⟨_, List.mem_cons_self, _, rfl, rfl, rfl⟩
example : Subscribed demoSt 3 7 := ⟨_, rfl, rfl, rfl⟩

end Verif.StreamSub
