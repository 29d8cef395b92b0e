import Verif.RailConn.Model
import Verif.Common.ListLemmas

/-!
# Properties of the rail connection state machine (C16)

The specification counts events in the history (oldest first) and what the application was told.
-/

namespace Verif.RailConn

/-- executions: `es` is the history (oldest first) of a rail of `n` endpoints of which `k` started connecting -/
inductive Reach (n k : Nat) : List Ev → St → Prop where
  | init : k ≤ n → Reach n k [] (init n k)
  | step {es s s' e} : Reach n k es s → legal s e → step s e = some s' → Reach n k (es ++ [e]) s'

def isConn : Ev → Bool
  | .conn _ => true
  | _ => false
def isRej : Ev → Bool
  | .rej _ => true
  | _ => false
def isErr : Ev → Bool
  | .err _ => true
  | _ => false
/-- the endpoint is down for good after this event -/
def isDown : Ev → Bool
  | .rej _ | .err _ | .disc _ => true
  | _ => false
def isTerm : Out → Bool
  | .connected => false
  | _ => true

/-- all `n` endpoints connected before anything else happened -/
def AllConnected (n : Nat) (es : List Ev) : Prop := n ≤ (es.takeWhile isConn).length
instance (n : Nat) (es : List Ev) : Decidable (AllConnected n es) := inferInstanceAs (Decidable (_ ≤ _))

/-- an endpoint disconnected while the rail was still connecting, before any other failure or close -/
def EarlyDisc (n : Nat) (es : List Ev) : Prop :=
  ∃ p i q, es = p ++ Ev.disc i :: q ∧ p.all isConn = true ∧ p.length < n

/-! ## Lemmas on histories -/

theorem takeWhile_self : ∀ {es : List Ev}, es.all isConn = true → es.takeWhile isConn = es := by
  intro es
  induction es with
  | nil => intro _; rfl
  | cons a es ih =>
    intro h
    simp only [List.all_cons, Bool.and_eq_true] at h
    rw [List.takeWhile_cons, if_pos h.1, ih h.2]

theorem tw_snoc_all {es : List Ev} {e : Ev} (h : es.all isConn = true) (he : isConn e = true) :
    ((es ++ [e]).takeWhile isConn).length = es.length + 1 := by
  have : (es ++ [e]).all isConn = true := by simp [List.all_append, h, he]
  have h2 : (es ++ [e]).takeWhile isConn = es ++ [e] := by
    exact takeWhile_self this
  rw [h2]; simp

theorem tw_all {es : List Ev} (h : es.all isConn = true) : (es.takeWhile isConn).length = es.length := by
  have h2 : es.takeWhile isConn = es := by
    exact takeWhile_self h
  rw [h2]

theorem tw_snoc_not_conn : ∀ {es : List Ev} {e : Ev}, isConn e = false →
    ((es ++ [e]).takeWhile isConn) = es.takeWhile isConn := by
  intro es
  induction es with
  | nil => intro e he; simp [he]
  | cons a es ih =>
    intro e he
    simp only [List.cons_append, List.takeWhile_cons]
    split
    · rw [ih he]
    · rfl

theorem tw_snoc_not_all : ∀ {es : List Ev} {e : Ev}, es.all isConn = false →
    ((es ++ [e]).takeWhile isConn) = es.takeWhile isConn := by
  intro es
  induction es with
  | nil => intro e h; simp at h
  | cons a es ih =>
    intro e h
    simp only [List.cons_append, List.takeWhile_cons]
    split
    · rename_i ha
      rw [ih]
      simpa [List.all_cons, ha] using h
    · rfl

theorem tw_le (es : List Ev) : (es.takeWhile isConn).length ≤ es.countP isConn := by
  induction es with
  | nil => simp
  | cons a es ih =>
    by_cases h : isConn a = true
    · simp [h]; exact ih
    · simp [h]

theorem allc_iff {n : Nat} {es fs : List Ev} (h : fs.takeWhile isConn = es.takeWhile isConn) :
    AllConnected n fs ↔ AllConnected n es := by unfold AllConnected; rw [h]

theorem downs_all_conn {es : List Ev} (h : es.all isConn = true) : es.countP isDown = 0 := by
  rw [List.countP_eq_zero]
  intro a ha
  have := List.all_eq_true.1 h a ha
  cases a <;> simp [isConn] at this <;> simp [isDown]

theorem early_mono {n : Nat} {es : List Ev} {e : Ev} (h : EarlyDisc n es) : EarlyDisc n (es ++ [e]) := by
  obtain ⟨p, i, q, h1, h2, h3⟩ := h
  exact ⟨p, i, q ++ [e], by simp [h1], h2, h3⟩

/-! ## Invariant -/

structure Inv (n k : Nat) (es : List Ev) (s : St) : Prop where
  kn : k ≤ n
  sn : s.n = n
  c1 : s.connectedEps = s.up.length
  c2 : s.connectingEps = s.pending.length
  c3 : s.rejectedEps = es.countP isRej
  c4 : s.connErrorEps = es.countP isErr
  tot : s.pending.length + s.up.length + es.countP isDown = k
  cn : s.pending.length + es.countP isConn ≤ k
  pn : s.pending.Nodup
  un : s.up.Nodup
  dj : ∀ i ∈ s.up, i ∉ s.pending
  ep1 : ∀ i ∈ s.pending, s.ep i = .connecting
  ep2 : ∀ i ∈ s.up, s.ep i = .connected ∨ s.ep i = .error
  stc : s.state = .connecting → s.out = [] ∧ k = n ∧ (es.takeWhile isConn).length < n ∧
    ((es.all isConn = true ∧ s.up.length = es.length ∧ es.length < n) ∨ EarlyDisc n es ∧ 0 < es.countP isDown)
  stu : s.state = .connected → s.out = [.connected] ∧ k = n ∧ es.all isConn = true ∧ es.length = n
  std : s.state = .rejected ∨ s.state = .error →
    (es.all isConn = false ∨ k < n) ∧
    (s.out.countP isTerm ≤ 1 ∧ (0 < s.out.countP isTerm → es.countP isDown = k) ∧
      (¬ EarlyDisc n es → es.countP isDown = k → 0 < k → s.out.countP isTerm = 1)) ∧
    (s.out = [] ∨ s.out = [.connected] ∨
      ∃ t, isTerm t = true ∧ (s.out = [t] ∨ s.out = [t, .connected]))
  str : s.state = .rejected → 0 < es.countP isRej
  con : s.out.count .connected = if AllConnected n es then 1 else 0
  stx : s.state ≠ .close
  kind : ∀ t ∈ s.out, (t = .rejected → 0 < es.countP isRej) ∧ (t = .error → 0 < es.countP isErr) ∧
    (t = .disconnected → es.countP isRej = 0 ∧ es.countP isErr = 0)

theorem inv_init {n k : Nat} (hn : 0 < n) (h : k ≤ n) : Inv n k [] (init n k) := by
  refine ⟨h, rfl, rfl, ?_, rfl, rfl, ?_, ?_, List.nodup_range, List.nodup_nil, ?_, ?_, ?_, ?_, ?_, ?_, ?_, ?_, ?_, ?_⟩
  · simp [init]
  · simp [init]
  · simp [init]
  · intro i hi; simp [init] at hi
  · intro i hi; simp [init] at hi ⊢; exact hi
  · intro i hi; simp [init] at hi
  · intro hs
    by_cases hk : k = n
    · refine ⟨rfl, hk, by simpa using hn, Or.inl ⟨rfl, rfl, by simpa using hn⟩⟩
    · simp [init, hk] at hs
  · intro hs; by_cases hk : k = n <;> simp [init, hk] at hs
  · intro hs
    by_cases hk : k = n
    · simp [init, hk] at hs
    · refine ⟨Or.inr (by omega), ?_, Or.inl rfl⟩
      exact ⟨Nat.zero_le _, fun h => absurd h (Nat.lt_irrefl _), fun _ h1 h2 => by simp at h1; omega⟩
  · intro hs; by_cases hk : k = n <;> simp [init, hk] at hs
  · simp [init, AllConnected]; omega
  · by_cases hk : k = n <;> simp [init, hk]
  · intro t ht; simp [init] at ht

theorem cut_connecting {f : Nat → EpSt} {i : Nat} (h : f i = .connecting) : cut f i = .connecting := by
  simp [cut, h]

theorem cut_live {f : Nat → EpSt} {i : Nat} (h : f i = .connected ∨ f i = .error) :
    cut f i = .connected ∨ cut f i = .error := by
  rcases h with h | h <;> simp [cut, h]

/-- common part of the proof for an endpoint going down: state `st` is REJECTED or ERROR afterwards -/
theorem inv_down {n k : Nat} {es : List Ev} {s s1 : St} {e : Ev} (hi : Inv n k es s)
    (he1 : isConn e = false) (he2 : isDown e = true)
    (hst : s1.state = .rejected ∨ s1.state = .error)
    (hstr : s1.state = .rejected → 0 < (es ++ [e]).countP isRej)
    (hsn : s1.n = s.n) (hout : s1.out = s.out)
    (hlive : 0 < s.pending.length + s.up.length)
    (h1 : s1.connectedEps = s1.up.length) (h2 : s1.connectingEps = s1.pending.length)
    (h3 : s1.rejectedEps = (es ++ [e]).countP isRej) (h4 : s1.connErrorEps = (es ++ [e]).countP isErr)
    (htot : s1.pending.length + s1.up.length + 1 = s.pending.length + s.up.length)
    (hpl : s1.pending.length ≤ s.pending.length)
    (hpn : s1.pending.Nodup) (hun : s1.up.Nodup) (hdj : ∀ i ∈ s1.up, i ∉ s1.pending)
    (hep1 : ∀ i ∈ s1.pending, s1.ep i = .connecting)
    (hep2 : ∀ i ∈ s1.up, s1.ep i = .connected ∨ s1.ep i = .error) :
    Inv n k (es ++ [e]) (evPrep s1) := by
  have hd : (es ++ [e]).countP isDown = es.countP isDown + 1 := by
    rw [List.countP_append]; simp [he2]
  have hc : (es ++ [e]).countP isConn = es.countP isConn := by
    rw [List.countP_append]; simp [he1]
  have htk := hi.tot
  have hcn := hi.cn
  have hall : (es ++ [e]).all isConn = false := by simp [List.all_append, he1]
  have htw : AllConnected n (es ++ [e]) ↔ AllConnected n es := by
    unfold AllConnected; rw [tw_snoc_not_conn he1]
  -- what the application has been told so far: nothing terminal
  have hprev : s.out = [] ∨ s.out = [.connected] := by
    cases hs : s.state with
    | connecting => exact Or.inl (hi.stc hs).1
    | connected => exact Or.inr (hi.stu hs).1
    | close => exact absurd hs hi.stx
    | rejected =>
      have h := hi.std (Or.inl hs)
      have h0 := h.2.1.2.1
      rcases h.2.2 with h' | h' | ⟨t, ht, h' | h'⟩
      · exact Or.inl h'
      · exact Or.inr h'
      · rw [h'] at h0; simp [ht] at h0; omega
      · rw [h'] at h0; simp [ht] at h0; omega
    | error =>
      have h := hi.std (Or.inr hs)
      have h0 := h.2.1.2.1
      rcases h.2.2 with h' | h' | ⟨t, ht, h' | h'⟩
      · exact Or.inl h'
      · exact Or.inr h'
      · rw [h'] at h0; simp [ht] at h0; omega
      · rw [h'] at h0; simp [ht] at h0; omega
  have hterm0 : s.out.countP isTerm = 0 := by rcases hprev with h | h <;> simp [h, isTerm]
  -- the result of evPrep
  by_cases hz : s1.pending.length + s1.up.length = 0
  · -- everything is down: one terminal event
    have hev : ∃ t, isTerm t = true ∧ evPrep s1 = { s1 with out := t :: s1.out } ∧
        (t = .rejected → 0 < (es ++ [e]).countP isRej) ∧ (t = .error → 0 < (es ++ [e]).countP isErr) ∧
        (t = .disconnected → (es ++ [e]).countP isRej = 0 ∧ (es ++ [e]).countP isErr = 0) := by
      have hc0 : s1.connectedEps = 0 ∧ s1.connectingEps = 0 := by omega
      rcases hst with hst | hst
      · refine ⟨.rejected, rfl, ?_, fun _ => hstr hst, fun h => (by cases h), fun h => (by cases h)⟩
        simp only [evPrep, hst, hc0, and_self, if_true]
      · by_cases he : s1.connErrorEps ≠ 0
        · refine ⟨.error, rfl, by simp only [evPrep, hst, hc0, and_self, if_true, if_pos he],
            fun h => (by cases h), fun _ => by omega, fun h => (by cases h)⟩
        · by_cases hr : s1.rejectedEps ≠ 0
          · refine ⟨.rejected, rfl, by simp only [evPrep, hst, hc0, and_self, if_true, if_neg he, if_pos hr],
              fun _ => by omega, fun h => (by cases h), fun h => (by cases h)⟩
          · refine ⟨.disconnected, rfl, by simp only [evPrep, hst, hc0, and_self, if_true, if_neg he, if_neg hr],
              fun h => (by cases h), fun h => (by cases h), fun _ => by omega⟩
    obtain ⟨t, ht, hev, hk1, hk2, hk3⟩ := hev
    rw [hev]
    refine ⟨hi.kn, (by rw [← hi.sn, ← hsn]), h1, h2, h3, h4, (by simp only [hd]; omega), (by simp only [hc]; omega), hpn, hun, hdj, hep1, hep2, ?_, ?_, ?_, hstr, ?_, ?_, ?_⟩
    · intro h; rcases hst with h' | h' <;> · simp only [h'] at h; cases h
    · intro h; rcases hst with h' | h' <;> · simp only [h'] at h; cases h
    · intro _
      refine ⟨Or.inl hall, ?_, Or.inr (Or.inr ⟨t, ht, ?_⟩)⟩
      · simp only [hout, List.countP_cons, ht, if_true, hterm0, hd]
        exact ⟨by omega, fun _ => by omega, by simp⟩
      · simp only [hout]
        rcases hprev with h | h <;> simp [h]
    · simp only [hout]
      rw [List.count_cons]
      have : ¬ ((t == Out.connected) = true) := by cases t <;> simp [isTerm] at ht ⊢
      rw [if_neg this, hi.con]
      simp only [htw, Nat.add_zero]
    · rcases hst with h' | h' <;> simp [h']
    · intro u hu
      simp only [hout, List.mem_cons] at hu
      rcases hu with rfl | hu
      · exact ⟨hk1, hk2, hk3⟩
      · rcases hprev with h | h
        · rw [h] at hu; cases hu
        · rw [h] at hu; simp at hu; subst hu
          exact ⟨fun h => (by cases h), fun h => (by cases h), fun h => (by cases h)⟩
  · have hev : evPrep s1 = s1 := by
      have : ¬ (s1.connectedEps = 0 ∧ s1.connectingEps = 0) := by omega
      rcases hst with hst | hst <;> simp only [evPrep, hst, this, if_false]
    rw [hev]
    refine ⟨hi.kn, (by rw [← hi.sn, ← hsn]), h1, h2, h3, h4, (by simp only [hd]; omega), (by simp only [hc]; omega), hpn, hun, hdj, hep1, hep2, ?_, ?_, ?_, hstr, ?_, ?_, ?_⟩
    · intro h; rcases hst with h' | h' <;> · simp only [h'] at h; cases h
    · intro h; rcases hst with h' | h' <;> · simp only [h'] at h; cases h
    · intro _
      refine ⟨Or.inl hall, ?_, ?_⟩
      · rw [hout, hterm0, hd]
        exact ⟨by omega, fun h => by omega, fun _ h => by omega⟩
      · rw [hout]
        rcases hprev with h | h
        · exact Or.inl h
        · exact Or.inr (Or.inl h)
    · rw [hout, hi.con]; simp only [htw]
    · rcases hst with h' | h' <;> simp [h']
    · intro u hu
      rw [hout] at hu
      rcases hprev with h | h
      · rw [h] at hu; cases hu
      · rw [h] at hu; simp at hu; subst hu
        exact ⟨fun h => (by cases h), fun h => (by cases h), fun h => (by cases h)⟩

theorem length_erase {i : Nat} {l : List Nat} (h : i ∈ l) : (l.erase i).length + 1 = l.length := by
  have h1 := List.length_erase_of_mem h
  have h2 := List.length_pos_of_mem h
  omega

theorem inv_step {n k : Nat} {es : List Ev} {s s' : St} {e : Ev} (hn : 0 < n) (hi : Inv n k es s)
    (hl : legal s e) (hs : step s e = some s') : Inv n k (es ++ [e]) s' := by
  cases e with
  | rej i =>
    have hm : i ∈ s.pending := hl
    have hel := length_erase hm
    simp only [step, hi.ep1 i hm, if_true] at hs
    injection hs with hs; subst hs
    refine inv_down hi rfl rfl (Or.inl rfl) ?_ rfl rfl (by omega) hi.c1 ?_ ?_ ?_ ?_ ?_ ?_ hi.un ?_ ?_ ?_
    · intro _; rw [List.countP_append]; simp [isRej]
    · show s.connectingEps - 1 = _
      rw [hi.c2]; simp only; omega
    · show s.rejectedEps + 1 = _
      rw [hi.c3, List.countP_append]; simp [isRej]
    · show s.connErrorEps = _
      rw [hi.c4, List.countP_append]; simp [isErr]
    · simp only; omega
    · simp only; omega
    · exact hi.pn.erase _
    · intro j hj hc; exact hi.dj j hj (List.mem_of_mem_erase hc)
    · intro j hj
      have hj2 := (List.Nodup.mem_erase_iff hi.pn).1 hj
      apply cut_connecting
      simp only [setEp, hj2.1, if_false]; exact hi.ep1 j hj2.2
    · intro j hj
      have hne : j ≠ i := fun h => hi.dj j hj (h ▸ hm)
      apply cut_live
      simp only [setEp, hne, if_false]; exact hi.ep2 j hj
  | err i =>
    have hm : i ∈ s.pending := hl
    have hel := length_erase hm
    simp only [step, hi.ep1 i hm, if_true] at hs
    injection hs with hs; subst hs
    refine inv_down hi rfl rfl (Or.inr rfl) (fun h => by cases h) rfl rfl (by omega) hi.c1 ?_ ?_ ?_ ?_ ?_ ?_
      hi.un ?_ ?_ ?_
    · show s.connectingEps - 1 = _
      rw [hi.c2]; simp only; omega
    · show s.rejectedEps = _
      rw [hi.c3, List.countP_append]; simp [isRej]
    · show s.connErrorEps + 1 = _
      rw [hi.c4, List.countP_append]; simp [isErr]
    · simp only; omega
    · simp only; omega
    · exact hi.pn.erase _
    · intro j hj hc; exact hi.dj j hj (List.mem_of_mem_erase hc)
    · intro j hj
      have hj2 := (List.Nodup.mem_erase_iff hi.pn).1 hj
      apply cut_connecting
      simp only [setEp, hj2.1, if_false]; exact hi.ep1 j hj2.2
    · intro j hj
      have hne : j ≠ i := fun h => hi.dj j hj (h ▸ hm)
      apply cut_live
      simp only [setEp, hne, if_false]; exact hi.ep2 j hj
  | disc i =>
    have hm : i ∈ s.up := hl
    have hel := length_erase hm
    -- the endpoint table after the event, in either branch
    have hex : ∃ ep', s' = evPrep { s with
          state := if s.state = .connected then .error else s.state
          connectedEps := s.connectedEps - 1, up := s.up.erase i, ep := ep' } ∧
        (∀ j ∈ s.pending, ep' j = .connecting) ∧
        (∀ j ∈ s.up.erase i, ep' j = .connected ∨ ep' j = .error) := by
      have hp : ∀ j ∈ s.pending, j ≠ i := fun j hj h => hi.dj i hm (h ▸ hj)
      rcases hi.ep2 i hm with h | h
      · simp only [step, h] at hs
        injection hs with hs
        refine ⟨cut (setEp s.ep i .close), hs.symm, ?_, ?_⟩
        · intro j hj
          apply cut_connecting
          simp only [setEp, hp j hj, if_false]; exact hi.ep1 j hj
        · intro j hj
          have hj2 := (List.Nodup.mem_erase_iff hi.un).1 hj
          apply cut_live
          simp only [setEp, hj2.1, if_false]; exact hi.ep2 j hj2.2
      · simp only [step, h] at hs
        injection hs with hs
        refine ⟨cut s.ep, hs.symm, ?_, ?_⟩
        · intro j hj; exact cut_connecting (hi.ep1 j hj)
        · intro j hj
          have hj2 := (List.Nodup.mem_erase_iff hi.un).1 hj
          exact cut_live (hi.ep2 j hj2.2)
    obtain ⟨ep', rfl, hp1, hp2⟩ := hex
    by_cases hsc : s.state = .connecting
    · -- the rail is still connecting: nothing is reported and the state stays
      have htk := hi.tot
      have hcc := hi.cn
      have hcase := hi.stc hsc
      have hkn := hi.kn
      have hsn := hi.sn
      have hc1 := hi.c1
      have hlt : s.connectedEps - 1 ≠ s.n := by omega
      have hev : evPrep { s with
          state := if s.state = .connected then .error else s.state
          connectedEps := s.connectedEps - 1, up := s.up.erase i, ep := ep' } =
          { s with connectedEps := s.connectedEps - 1, up := s.up.erase i, ep := ep' } := by
        simp [evPrep, hsc, hlt]
      rw [hev]
      have hd : (es ++ [Ev.disc i]).countP isDown = es.countP isDown + 1 := by
        rw [List.countP_append]; simp [isDown]
      have hc : (es ++ [Ev.disc i]).countP isConn = es.countP isConn := by
        rw [List.countP_append]; simp [isConn]
      have htw : ((es ++ [Ev.disc i]).takeWhile isConn) = es.takeWhile isConn := tw_snoc_not_conn rfl
      refine ⟨hi.kn, hi.sn, ?_, hi.c2, ?_, ?_, (by simp only [hd]; omega), (by simp only [hc]; omega), hi.pn, (hi.un.erase _), ?_, hp1, hp2, ?_, ?_, ?_, ?_, ?_, hi.stx, ?_⟩
      · show s.connectedEps - 1 = _
        rw [hi.c1]; simp only; omega
      · show s.rejectedEps = _
        rw [hi.c3, List.countP_append]; simp [isRej]
      · show s.connErrorEps = _
        rw [hi.c4, List.countP_append]; simp [isErr]
      · intro j hj; exact hi.dj j (List.mem_of_mem_erase hj)
      · intro _
        refine ⟨hcase.1, hcase.2.1, by rw [htw]; exact hcase.2.2.1, Or.inr ⟨?_, by omega⟩⟩
        rcases hcase.2.2.2 with h | h
        · exact ⟨es, i, [], rfl, h.1, h.2.2⟩
        · exact early_mono h.1
      · intro h; simp only [hsc] at h; cases h
      · intro h; simp only [hsc] at h; rcases h with h | h <;> cases h
      · intro h; simp only [hsc] at h; cases h
      · show s.out.count .connected = _
        rw [hi.con]; simp only [allc_iff htw]
      · intro t ht
        have h0 : s.out = [] := hcase.1
        have ht' : t ∈ s.out := ht
        rw [h0] at ht'; cases ht'
    · refine inv_down hi rfl rfl ?_ ?_ rfl rfl (by omega) ?_ hi.c2 ?_ ?_ ?_ ?_ hi.pn (hi.un.erase _) ?_ hp1 hp2
      · have hx := hi.stx
        simp only
        cases hss : s.state <;> simp_all
      · intro h
        simp only at h
        rw [List.countP_append]
        have hr : s.state = .rejected := by
          split at h
          · cases h
          · exact h
        have := hi.str hr
        omega
      · show s.connectedEps - 1 = _
        rw [hi.c1]; simp only; omega
      · show s.rejectedEps = _
        rw [hi.c3, List.countP_append]; simp [isRej]
      · show s.connErrorEps = _
        rw [hi.c4, List.countP_append]; simp [isErr]
      · simp only; omega
      · simp only; omega
      · intro j hj; exact hi.dj j (List.mem_of_mem_erase hj)
  | close =>
    simp only [step] at hs
    injection hs with hs; subst hs
    have hd : (es ++ [Ev.close]).countP isDown = es.countP isDown := by rw [List.countP_append]; simp [isDown]
    have hc : (es ++ [Ev.close]).countP isConn = es.countP isConn := by rw [List.countP_append]; simp [isConn]
    have hr : (es ++ [Ev.close]).countP isRej = es.countP isRej := by rw [List.countP_append]; simp [isRej]
    have he : (es ++ [Ev.close]).countP isErr = es.countP isErr := by rw [List.countP_append]; simp [isErr]
    have htw : ((es ++ [Ev.close]).takeWhile isConn) = es.takeWhile isConn := tw_snoc_not_conn rfl
    have htk := hi.tot
    have hcn := hi.cn
    refine ⟨hi.kn, hi.sn, hi.c1, hi.c2, (by rw [hr]; exact hi.c3), (by rw [he]; exact hi.c4), (by rw [hd]; exact htk), (by rw [hc]; exact hcn), hi.pn, hi.un, hi.dj, (fun j hj => cut_connecting (hi.ep1 j hj)), (fun j hj => cut_live (hi.ep2 j hj)), (fun h => by cases h), (fun h => by cases h), ?_, (fun h => by cases h), ?_, (fun h => by cases h), ?_⟩
    · intro _
      refine ⟨Or.inl (by simp [List.all_append, isConn]), ?_, ?_⟩
      · show s.out.countP isTerm ≤ 1 ∧ (0 < s.out.countP isTerm → _) ∧ (_ → _ → _ → s.out.countP isTerm = 1)
        rw [hd]
        cases hss : s.state with
        | connecting =>
          have h := hi.stc hss
          rw [h.1]
          refine ⟨Nat.zero_le _, fun h => absurd h (Nat.lt_irrefl _), fun hne h1 h2 => ?_⟩
          rcases h.2.2.2 with h3 | h3
          · have := downs_all_conn h3.1; omega
          · exact absurd (early_mono h3.1) hne
        | connected =>
          have h := hi.stu hss
          have hdz := downs_all_conn h.2.2.1
          rw [h.1]
          refine ⟨Nat.zero_le _, fun h => absurd h (Nat.lt_irrefl _), fun hne h1 h2 => by omega⟩
        | rejected =>
          have h := (hi.std (Or.inl hss)).2.1
          exact ⟨h.1, h.2.1, fun hne => h.2.2 (fun h => hne (early_mono h))⟩
        | error =>
          have h := (hi.std (Or.inr hss)).2.1
          exact ⟨h.1, h.2.1, fun hne => h.2.2 (fun h => hne (early_mono h))⟩
        | close => exact absurd hss hi.stx
      · show s.out = [] ∨ _
        cases hss : s.state with
        | connecting => exact Or.inl (hi.stc hss).1
        | connected => exact Or.inr (Or.inl (hi.stu hss).1)
        | rejected => exact (hi.std (Or.inl hss)).2.2
        | error => exact (hi.std (Or.inr hss)).2.2
        | close => exact absurd hss hi.stx
    · show s.out.count .connected = _
      rw [hi.con]; simp only [allc_iff htw]
    · intro t ht
      rw [hr, he]; exact hi.kind t ht
  | conn i =>
    have hm : i ∈ s.pending := hl
    have hel := length_erase hm
    have hd : (es ++ [Ev.conn i]).countP isDown = es.countP isDown := by rw [List.countP_append]; simp [isDown]
    have hc : (es ++ [Ev.conn i]).countP isConn = es.countP isConn + 1 := by
      rw [List.countP_append]; simp [isConn]
    have hr : (es ++ [Ev.conn i]).countP isRej = es.countP isRej := by rw [List.countP_append]; simp [isRej]
    have he : (es ++ [Ev.conn i]).countP isErr = es.countP isErr := by rw [List.countP_append]; simp [isErr]
    have htk := hi.tot
    have hcn := hi.cn
    have hkn := hi.kn
    have hsn := hi.sn
    have hc1 := hi.c1
    have hc2 := hi.c2
    have hnu : i ∉ s.up := fun h => hi.dj i h hm
    have hun : (i :: s.up).Nodup := List.nodup_cons.2 ⟨hnu, hi.un⟩
    have hdj : ∀ j ∈ i :: s.up, j ∉ s.pending.erase i := by
      intro j hj hc
      have hc' := (List.Nodup.mem_erase_iff hi.pn).1 hc
      rcases List.mem_cons.1 hj with h | h
      · exact hc'.1 h
      · exact hi.dj j h hc'.2
    have hp1 : ∀ a, ∀ j ∈ s.pending.erase i, setEp s.ep i a j = .connecting := by
      intro a j hj
      have hj2 := (List.Nodup.mem_erase_iff hi.pn).1 hj
      simp only [setEp, hj2.1, if_false]; exact hi.ep1 j hj2.2
    have hp2 : ∀ a, (a = .connected ∨ a = .error) → ∀ j ∈ i :: s.up, setEp s.ep i a j = .connected ∨
        setEp s.ep i a j = .error := by
      intro a ha j hj
      by_cases hji : j = i
      · simp only [setEp, hji, if_true]; exact ha
      · simp only [setEp, hji, if_false]
        rcases List.mem_cons.1 hj with h | h
        · exact absurd h hji
        · exact hi.ep2 j h
    cases hss : s.state with
    | connecting =>
      simp only [step, hss] at hs
      injection hs with hs
      have hcase := hi.stc hss
      by_cases hfire : s.connectedEps + 1 = s.n
      · -- the last endpoint connected
        simp only [evPrep, hfire, if_true] at hs
        subst hs
        have hup : s.up.length + 1 = n := by omega
        have hall : es.all isConn = true ∧ s.up.length = es.length ∧ es.length < n := by
          rcases hcase.2.2.2 with h | h
          · exact h
          · have := h.2; omega
        have hall' : (es ++ [Ev.conn i]).all isConn = true := by simp [List.all_append, hall.1, isConn]
        refine ⟨hkn, hsn, ?_, ?_, ?_, ?_, ?_, ?_, hi.pn.erase _, hun, hdj, hp1 _, hp2 _ (Or.inl rfl), ?_, ?_, ?_, ?_,
          ?_, ?_, ?_⟩
        · simp only [List.length_cons]; omega
        · simp only; omega
        · simp only [hr]; exact hi.c3
        · simp only [he]; exact hi.c4
        · simp only [List.length_cons, hd]; omega
        · simp only [hc]; omega
        · intro h; cases h
        · intro _
          exact ⟨by simp only [hcase.1], hcase.2.1, hall', by simp; omega⟩
        · intro h; rcases h with h | h <;> cases h
        · intro h; cases h
        · have : AllConnected n (es ++ [Ev.conn i]) := by
            unfold AllConnected; rw [tw_all hall']; simp; omega
          rw [if_pos this]
          simp [hcase.1]
        · intro h; cases h
        · intro t ht
          simp only [hcase.1, List.mem_singleton] at ht
          subst ht
          exact ⟨fun h => (by cases h), fun h => (by cases h), fun h => (by cases h)⟩
      · simp only [evPrep, hfire, if_false] at hs
        subst hs
        have hup : s.up.length + 1 ≠ n := by omega
        refine ⟨hkn, hsn, ?_, ?_, ?_, ?_, ?_, ?_, hi.pn.erase _, hun, hdj, hp1 _, hp2 _ (Or.inl rfl), ?_, ?_, ?_, ?_,
          ?_, ?_, ?_⟩
        · simp only [List.length_cons]; omega
        · simp only; omega
        · simp only [hr]; exact hi.c3
        · simp only [he]; exact hi.c4
        · simp only [List.length_cons, hd]; omega
        · simp only [hc]; omega
        · intro _
          refine ⟨hcase.1, hcase.2.1, ?_, ?_⟩
          · rcases hcase.2.2.2 with h | h
            · rw [tw_snoc_all h.1 rfl]; omega
            · have hna : es.all isConn = false := by
                cases hb : es.all isConn with
                | false => rfl
                | true => have := downs_all_conn hb; omega
              rw [tw_snoc_not_all hna]; exact hcase.2.2.1
          · rcases hcase.2.2.2 with h | h
            · exact Or.inl ⟨by simp [List.all_append, h.1, isConn], by simp; omega, by simp; omega⟩
            · exact Or.inr ⟨early_mono h.1, by omega⟩
        · intro h; cases h
        · intro h; rcases h with h | h <;> cases h
        · intro h; cases h
        · have : ¬ AllConnected n (es ++ [Ev.conn i]) := by
            unfold AllConnected
            rcases hcase.2.2.2 with h | h
            · rw [tw_snoc_all h.1 rfl]; omega
            · have hna : es.all isConn = false := by
                cases hb : es.all isConn with
                | false => rfl
                | true => have := downs_all_conn hb; omega
              rw [tw_snoc_not_all hna]; have := hcase.2.2.1; omega
          rw [if_neg this]
          simp [hcase.1]
        · intro h; cases h
        · intro t ht
          simp only [hcase.1] at ht; cases ht
    | error =>
      simp only [step, hss] at hs
      have hz : ¬ (s.connectedEps + 1 = 0 ∧ s.connectingEps - 1 = 0) := by omega
      simp only [evPrep, hz, if_false] at hs
      injection hs with hs
      subst hs
      have hep : setEp (setEp s.ep i .connected) i .error = setEp s.ep i .error := by
        funext j; simp only [setEp]; split <;> rfl
      have hstd := hi.std (Or.inr hss)
      have hallc : AllConnected n (es ++ [Ev.conn i]) ↔ AllConnected n es := by
        rcases hstd.1 with h | h
        · exact allc_iff (tw_snoc_not_all h)
        · have h1 := tw_le es
          have h2 := tw_le (es ++ [Ev.conn i])
          unfold AllConnected
          constructor <;> intro h3 <;> omega
      refine ⟨hkn, hsn, ?_, ?_, ?_, ?_, ?_, ?_, hi.pn.erase _, hun, hdj, ?_, ?_, ?_, ?_, ?_, ?_,
          ?_, ?_, ?_⟩
      · simp only [List.length_cons]; omega
      · simp only; omega
      · simp only [hr]; exact hi.c3
      · simp only [he]; exact hi.c4
      · simp only [List.length_cons, hd]; omega
      · simp only [hc]; omega
      · simp only [hep]; exact hp1 _
      · simp only [hep]; exact hp2 _ (Or.inr rfl)
      · intro h; cases h
      · intro h; cases h
      · intro _
        refine ⟨?_, ?_, hstd.2.2⟩
        · rcases hstd.1 with h | h
          · left; simp [List.all_append, h]
          · exact Or.inr h
        · simp only [hd]
          exact ⟨hstd.2.1.1, hstd.2.1.2.1, fun hne => hstd.2.1.2.2 (fun h => hne (early_mono h))⟩
      · intro h; cases h
      · show s.out.count .connected = _
        rw [hi.con]; simp only [hallc]
      · intro h; cases h
      · intro t ht
        rw [hr, he]; exact hi.kind t ht
    | connected => simp [step, hss] at hs
    | rejected => simp [step, hss] at hs
    | close => simp [step, hss] at hs

theorem reach_inv {n k : Nat} {es : List Ev} {s : St} (hn : 0 < n) (h : Reach n k es s) : Inv n k es s := by
  induction h with
  | init hk => exact inv_init hn hk
  | step _ hl hs ih => exact inv_step hn ih hl hs

/-! ## Properties -/

/-- **C16 (CONNECTED).** The application is told CONNECTED exactly once if all `n` endpoints connected before
anything else happened, and never otherwise. -/
theorem rail_connected_iff (n k : Nat) (es : List Ev) (s : St) (hn : 0 < n) (h : Reach n k es s) :
    s.out.count .connected = if AllConnected n es then 1 else 0 :=
  (reach_inv hn h).con

/-- number of terminal events the application was told -/
def terminals (out : List Out) : Nat := out.countP isTerm

/-- **C16 (terminal event, never early, never twice).** At most one terminal event (REJECTED, ERROR or
DISCONNECTED) is reported, only after every endpoint that started is down, and nothing is reported after it. -/
theorem rail_terminal_at_most_once (n k : Nat) (es : List Ev) (s : St) (hn : 0 < n) (h : Reach n k es s) :
    terminals s.out ≤ 1 ∧ (0 < terminals s.out → es.countP isDown = k) ∧
    (0 < terminals s.out → ∃ t, isTerm t = true ∧ (s.out = [t] ∨ s.out = [t, .connected])) := by
  have hi := reach_inv hn h
  unfold terminals
  have hd : s.state = .rejected ∨ s.state = .error →
      s.out.countP isTerm ≤ 1 ∧ (0 < s.out.countP isTerm → es.countP isDown = k) ∧
      (0 < s.out.countP isTerm → ∃ t, isTerm t = true ∧ (s.out = [t] ∨ s.out = [t, .connected])) := by
    intro hst
    have h1 := hi.std hst
    refine ⟨h1.2.1.1, h1.2.1.2.1, fun hp => ?_⟩
    rcases h1.2.2 with h2 | h2 | h2
    · rw [h2] at hp; simp at hp
    · rw [h2] at hp; simp [isTerm] at hp
    · exact h2
  cases hs : s.state with
  | connecting => rw [(hi.stc hs).1]; simp
  | connected => rw [(hi.stu hs).1]; simp [isTerm]
  | rejected => exact hd (Or.inl hs)
  | error => exact hd (Or.inr hs)
  | close => exact absurd hs hi.stx

/-- **C16 (terminal event, exactly once), partial.** Once every endpoint that started is down, exactly one
terminal event has been reported, provided no endpoint disconnected while the rail was still connecting.
Missing: that case, where no event is ever reported (`rail_early_disconnect_silent_defect`). -/
theorem rail_terminal_exactly_once_partial (n k : Nat) (es : List Ev) (s : St) (hn : 0 < n) (hk : 0 < k)
    (h : Reach n k es s) (hall : es.countP isDown = k) (hne : ¬ EarlyDisc n es) : terminals s.out = 1 := by
  have hi := reach_inv hn h
  unfold terminals
  cases hs : s.state with
  | connecting =>
    have h1 := hi.stc hs
    rcases h1.2.2.2 with h2 | h2
    · have := downs_all_conn h2.1; omega
    · exact absurd h2.1 hne
  | connected =>
    have h1 := hi.stu hs
    have := downs_all_conn h1.2.2.1; omega
  | rejected => exact (hi.std (Or.inl hs)).2.1.2.2 hne hall hk
  | error => exact (hi.std (Or.inr hs)).2.1.2.2 hne hall hk
  | close => exact absurd hs hi.stx

/-- **C16 (which terminal event).** REJECTED is reported only if an endpoint was rejected, ERROR only if
connecting an endpoint failed, DISCONNECTED only if neither happened. -/
theorem rail_terminal_kind (n k : Nat) (es : List Ev) (s : St) (hn : 0 < n) (h : Reach n k es s) :
    (Out.rejected ∈ s.out → ∃ i, Ev.rej i ∈ es) ∧ (Out.error ∈ s.out → ∃ i, Ev.err i ∈ es) ∧
    (Out.disconnected ∈ s.out → (∀ i, Ev.rej i ∉ es) ∧ ∀ i, Ev.err i ∉ es) := by
  have hi := reach_inv hn h
  refine ⟨?_, ?_, ?_⟩
  · intro ht
    have := (hi.kind _ ht).1 rfl
    obtain ⟨a, ha, hr⟩ := List.countP_pos_iff.1 this
    cases a <;> simp [isRej] at hr
    exact ⟨_, ha⟩
  · intro ht
    have := (hi.kind _ ht).2.1 rfl
    obtain ⟨a, ha, hr⟩ := List.countP_pos_iff.1 this
    cases a <;> simp [isErr] at hr
    exact ⟨_, ha⟩
  · intro ht
    have := (hi.kind _ ht).2.2 rfl
    refine ⟨fun i hm => ?_, fun i hm => ?_⟩
    · exact absurd rfl ((List.countP_eq_zero.1 this.1) _ hm)
    · exact absurd rfl ((List.countP_eq_zero.1 this.2) _ hm)

/-- **When the process aborts.** An event the transport can produce fails an assertion only if an endpoint
connects after another one was rejected; in particular never on a rail where nothing was rejected. -/
theorem rail_abort_only_after_reject (n k : Nat) (es : List Ev) (s : St) (e : Ev) (hn : 0 < n)
    (h : Reach n k es s) (hl : legal s e) (ha : step s e = none) :
    (∃ i, e = .conn i) ∧ ∃ i, Ev.rej i ∈ es := by
  have hi := reach_inv hn h
  cases e with
  | conn i =>
    refine ⟨⟨i, rfl⟩, ?_⟩
    have hm : i ∈ s.pending := hl
    have hp := List.length_pos_of_mem hm
    cases hs : s.state with
    | connecting => simp [step, hs] at ha
    | error => simp [step, hs] at ha
    | connected =>
      have h1 := hi.stu hs
      have h2 := hi.cn
      have h3 : es.countP isConn = es.length := by
        rw [List.countP_eq_length]
        intro a ha; exact List.all_eq_true.1 h1.2.2.1 a ha
      omega
    | close => exact absurd hs hi.stx
    | rejected =>
      have := hi.str hs
      obtain ⟨a, ha, hr⟩ := List.countP_pos_iff.1 this
      cases a <;> simp [isRej] at hr
      exact ⟨_, ha⟩
  | rej i => simp [step, hi.ep1 i hl] at ha
  | err i => simp [step, hi.ep1 i hl] at ha
  | disc i =>
    rcases hi.ep2 i hl with h1 | h1 <;> simp [step, h1] at ha
  | close => simp [step] at ha

/-- run a history and say what the application was told -/
def told (s : St) : List Ev → Option (List Out)
  | [] => some s.out
  | e :: es => (step s e).bind (fun s' => told s' es)

/-- a normal life: three endpoints connect, one disconnects, the others are cut -/
example : told (init 3 3) [.conn 0, .conn 2, .conn 1, .disc 2, .disc 0, .disc 1] = some [.disconnected, .connected] := by
  decide
/-- one endpoint fails, the connected one is cut -/
example : told (init 2 2) [.conn 0, .err 1, .disc 0] = some [.error] := by decide
example : ∃ s, Reach 2 2 [.conn 0, .err 1, .disc 0] s ∧ s.out = [.error] :=
  ⟨_, .step (es := [.conn 0, .err 1]) (.step (es := [.conn 0]) (.step (es := []) (.init (Nat.le_refl _))
    (by simp [legal, init]) rfl) (by simp [legal]; decide) rfl) (by simp [legal]; decide) rfl, rfl⟩

/-- **Defect.** An endpoint disconnects before the last one has connected: the rail stays CONNECTING, the
endpoint that connects later is not cut, and when everything is down the application has been told nothing. -/
theorem rail_early_disconnect_silent_defect :
    ∃ (es : List Ev) (s : St), Reach 2 2 es s ∧ es.countP isDown = 2 ∧ s.out = [] :=
  ⟨[.conn 0, .disc 0, .conn 1, .disc 1], _,
    .step (es := [.conn 0, .disc 0, .conn 1]) (.step (es := [.conn 0, .disc 0]) (.step (es := [.conn 0])
      (.step (es := []) (.init (Nat.le_refl _)) (by simp [legal, init]) rfl) (by simp [legal]; decide) rfl)
      (by simp [legal]; decide) rfl) (by simp [legal]; decide) rfl, by decide, rfl⟩

/-- **Defect.** After one endpoint has been rejected, another one connecting fails an assertion. -/
theorem rail_connect_after_reject_aborts_defect :
    ∃ (s : St), Reach 2 2 [.rej 0] s ∧ legal s (.conn 1) ∧ step s (.conn 1) = none :=
  ⟨_, .step (es := []) (.init (Nat.le_refl _)) (by simp [legal, init]) rfl, by simp [legal]; decide, rfl⟩

end Verif.RailConn
