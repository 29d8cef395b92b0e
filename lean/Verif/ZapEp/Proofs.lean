import Verif.ZapEp.Model

/-! Shapes of reachable endpoints. -/

namespace Verif.ZapEp

def rcv (k : Nat) : List Event := List.replicate k .recv
def dat (k : Nat) : List Msg := List.replicate k .data

theorem rcv_snoc (k : Nat) : rcv k ++ [.recv] = rcv (k + 1) := by
  simp [rcv, List.replicate_succ']

theorem dat_snoc (k : Nat) : dat k ++ [.data] = dat (k + 1) := by
  simp [dat, List.replicate_succ']

/-- shapes of an active endpoint -/
inductive ShA : Ep → Prop
  | a0 : ShA ⟨.init, false, false, false, false, false, 0, false, false, []⟩
  | a1 (th reg up : Bool) (refs : Nat) (h : reg = true → th = true ∧ refs = 1) :
      ShA ⟨.connecting, th, reg, false, false, up, refs, false, false, []⟩
  | a2 (th up : Bool) (refs : Nat) (hz : refs = 0) :
      ShA ⟨.error, th, false, false, false, up, refs, false, false, [.connectError]⟩
  | a3 (th reg up : Bool) (refs : Nat) (h : reg = true → th = true ∧ refs = 1) :
      ShA ⟨.error, th, reg, false, false, up, refs, false, false, [.rejected]⟩
  | a4 (th reg up : Bool) (refs k : Nat) (h : reg = true → th = true ∧ refs = 1) :
      ShA ⟨.connected, th, reg, false, false, up, refs, false, false, .connected :: rcv k⟩
  | a5 (th reg up : Bool) (refs k : Nat) (h : reg = true → th = true ∧ refs = 1) :
      ShA ⟨.close, th, reg, false, false, up, refs, false, false, .connected :: rcv k⟩
  | a6 (st : St) (th up : Bool) (refs k : Nat) (hz : refs = 0) (h : st = .peerClose ∨ st = .close) :
      ShA ⟨st, th, false, false, false, up, refs, false, false,
        .connected :: (rcv k ++ [.disconnected])⟩

/-- shapes of a passive endpoint -/
inductive ShP : Ep → Prop
  | p0 (reg busy up : Bool) (h : reg = true → busy = false) :
      ShP ⟨.accepting, false, reg, busy, false, up, 1, false, false, []⟩
  | p1 (busy up : Bool) :
      ShP ⟨.accepting, false, false, busy, false, up, 1, true, false, [.connectRequest]⟩
  | p2 (th reg busy up : Bool) (refs : Nat) (h : reg = true → th = true ∧ refs = 1) :
      ShP ⟨.error, th, reg, busy, false, up, refs, false, false, [.connectRequest]⟩
  | p3 (reg busy up : Bool) :
      ShP ⟨.accepting, true, reg, busy, true, up, 1, false, false, [.connectRequest]⟩
  | p4 (busy up : Bool) (refs : Nat) (hz : refs = 0) :
      ShP ⟨.error, true, false, busy, true, up, refs, false, false, [.connectRequest, .connectError]⟩
  | p5 (busy up : Bool) (refs : Nat) (hz : refs = 0) :
      ShP ⟨.error, false, false, busy, false, up, refs, false, true, [.connectRequest]⟩
  | p6 (st : St) (reg busy up : Bool) (k : Nat) (h : st = .connected ∨ st = .close) :
      ShP ⟨st, true, reg, busy, true, up, 1, false, false, .connectRequest :: .connected :: rcv k⟩
  | p7 (st : St) (busy up : Bool) (refs k : Nat) (hz : refs = 0) (h : st = .peerClose ∨ st = .close) :
      ShP ⟨st, true, false, busy, true, up, refs, false, false,
        .connectRequest :: .connected :: (rcv k ++ [.disconnected])⟩

theorem ShA.a0' (e : Ep) (h : e = newActive) : ShA e := by subst h; exact ShA.a0

theorem shA_msg (e : Ep) (h : ShA e) (m : Msg) (hm : m ≠ .connect true) : ShA (msg e m).1 := by
  cases h with
  | a0 => exact ShA.a0
  | a1 th reg up refs h =>
    cases reg
    · exact ShA.a1 th false up refs h
    · cases m
      all_goals first
        | exact ShA.a1 th true up refs h
        | exact ShA.a4 th true up refs 0 h
        | exact ShA.a3 th true up refs h
  | a2 th up refs hz => exact ShA.a2 th up refs hz
  | a3 th reg up refs h => cases reg <;> exact ShA.a3 th _ up refs h
  | a4 th reg up refs k h =>
    cases reg
    · exact ShA.a4 th false up refs k h
    · cases m with
      | connect g =>
        cases g
        · exact ShA.a4 th true up refs k h
        · exact absurd rfl hm
      | data =>
        have : (.connected :: rcv k) ++ [.recv] = Event.connected :: rcv (k + 1) := by
          simp [rcv_snoc]
        show ShA ⟨.connected, th, true, false, false, up, refs, false, false,
          (.connected :: rcv k) ++ [.recv]⟩
        rw [this]
        exact ShA.a4 th true up refs (k + 1) h
      | junk => exact ShA.a5 th true up refs k h
      | _ => exact ShA.a4 th true up refs k h
  | a5 th reg up refs k h => cases reg <;> exact ShA.a5 th _ up refs k h
  | a6 st th up refs k hz h => exact ShA.a6 st th up refs k hz h

theorem shA_hup (e : Ep) (h : ShA e) : ∃ e', hup e = some e' ∧ ShA e' := by
  cases h with
  | a0 => exact ⟨_, rfl, ShA.a0⟩
  | a1 th reg up refs h =>
    cases reg
    · exact ⟨_, rfl, ShA.a1 th false up refs h⟩
    · obtain ⟨rfl, rfl⟩ := h rfl
      exact ⟨_, rfl, ShA.a2 true up 0 rfl⟩
  | a2 th up refs hz => exact ⟨_, rfl, ShA.a2 th up refs hz⟩
  | a3 th reg up refs h =>
    cases reg
    · exact ⟨_, rfl, ShA.a3 th false up refs h⟩
    · obtain ⟨rfl, rfl⟩ := h rfl
      exact ⟨_, rfl, ShA.a3 true false up 0 (fun h => by cases h)⟩
  | a4 th reg up refs k h =>
    cases reg
    · exact ⟨_, rfl, ShA.a4 th false up refs k h⟩
    · obtain ⟨rfl, rfl⟩ := h rfl
      exact ⟨_, rfl, ShA.a6 .peerClose true up 0 k rfl (Or.inl rfl)⟩
  | a5 th reg up refs k h =>
    cases reg
    · exact ⟨_, rfl, ShA.a5 th false up refs k h⟩
    · obtain ⟨rfl, rfl⟩ := h rfl
      exact ⟨_, rfl, ShA.a6 .close true up 0 k rfl (Or.inr rfl)⟩
  | a6 st th up refs k hz h => exact ⟨_, rfl, ShA.a6 st th up refs k hz h⟩

theorem shA_step (e : Ep) (h : ShA e) (i : Inp) (hi : i ≠ .msg (.connect true)) :
    ∃ e' o, step e i = some (e', o) ∧ ShA e' := by
  cases i with
  | msg m => exact ⟨_, _, rfl, shA_msg e h m (fun hm => hi (by rw [hm]))⟩
  | hup =>
    obtain ⟨e', h1, h2⟩ := shA_hup e h
    exact ⟨e', [], by simp [step, h1], h2⟩
  | connect ok =>
    refine ⟨_, _, rfl, ?_⟩
    cases h with
    | a0 =>
      cases ok
      · exact ShA.a1 false false false 0 (fun h => by cases h)
      · exact ShA.a1 true true false 1 (fun _ => ⟨rfl, rfl⟩)
    | a1 th reg up refs h => exact ShA.a1 th false up refs (fun h => by cases h)
    | a2 th up refs hz => exact ShA.a2 th up refs hz
    | a3 th reg up refs h => exact ShA.a3 th false up refs (fun h => by cases h)
    | a4 th reg up refs k h => exact ShA.a4 th false up refs k (fun h => by cases h)
    | a5 th reg up refs k h => exact ShA.a5 th false up refs k (fun h => by cases h)
    | a6 st th up refs k hz h =>
      rcases h with rfl | rfl
      · exact ShA.a6 _ th up refs k hz (Or.inl rfl)
      · exact ShA.a6 _ th up refs k hz (Or.inr rfl)
  | sockUp =>
    refine ⟨_, _, rfl, ?_⟩
    cases h with
    | a0 => exact ShA.a0
    | a1 th reg up refs h =>
      cases reg
      · exact ShA.a1 th false up refs h
      · cases up <;> exact ShA.a1 th true true refs h
    | a2 th up refs hz => exact ShA.a2 th up refs hz
    | a3 th reg up refs h => cases reg <;> exact ShA.a3 th _ up refs h
    | a4 th reg up refs k h => cases reg <;> exact ShA.a4 th _ up refs k h
    | a5 th reg up refs k h => cases reg <;> exact ShA.a5 th _ up refs k h
    | a6 st th up refs k hz h => exact ShA.a6 st th up refs k hz h
  | readErr =>
    refine ⟨_, _, rfl, ?_⟩
    cases h with
    | a0 => exact ShA.a0
    | a1 th reg up refs h => cases reg <;> exact ShA.a1 th _ up refs h
    | a2 th up refs hz => exact ShA.a2 th up refs hz
    | a3 th reg up refs h => cases reg <;> exact ShA.a3 th _ up refs h
    | a4 th reg up refs k h =>
      cases reg
      · exact ShA.a4 th _ up refs k h
      · exact ShA.a5 th _ up refs k h
    | a5 th reg up refs k h => cases reg <;> exact ShA.a5 th _ up refs k h
    | a6 st th up refs k hz h => exact ShA.a6 st th up refs k hz h
  | leave b =>
    refine ⟨e, [], ?_, h⟩
    cases h <;> rfl
  | accept r =>
    refine ⟨e, [], ?_, h⟩
    cases h <;> rfl
  | reject =>
    refine ⟨e, [], ?_, h⟩
    cases h <;> rfl
  | close =>
    refine ⟨_, _, rfl, ?_⟩
    cases h with
    | a0 => exact ShA.a0
    | a1 th reg up refs h => exact ShA.a1 th _ up refs h
    | a2 th up refs hz => exact ShA.a2 th up refs hz
    | a3 th reg up refs h => exact ShA.a3 th _ up refs h
    | a4 th reg up refs k h => exact ShA.a5 th _ up refs k h
    | a5 th reg up refs k h => exact ShA.a5 th _ up refs k h
    | a6 st th up refs k hz h =>
      rcases h with rfl | rfl <;> exact ShA.a6 .close th up refs k hz (Or.inr rfl)

/-- what a conforming peer may send to a passive endpoint -/
def Allowed (e : Ep) (m : Msg) : Prop :=
  e.reg = true → (e.log = [] → m ≠ .ack) ∧ (e.log ≠ [] → m ≠ .connect true)

theorem shP_msg (e : Ep) (h : ShP e) (m : Msg) (hm : Allowed e m) : ShP (msg e m).1 := by
  cases h with
  | p0 reg busy up h =>
    cases reg
    · exact ShP.p0 false busy up h
    · cases m with
      | connect g =>
        cases g
        · exact ShP.p0 false true up (fun h => by cases h)
        · exact ShP.p1 true up
      | ack => exact absurd rfl ((hm rfl).1 rfl)
      | _ => exact ShP.p0 false true up (fun h => by cases h)
  | p1 busy up => exact ShP.p1 busy up
  | p2 th reg busy up refs h => cases reg <;> exact ShP.p2 th _ busy up refs h
  | p3 reg busy up =>
    cases reg
    · exact ShP.p3 false busy up
    · cases m with
      | connect g =>
        cases g
        · exact ShP.p3 true busy up
        · exact absurd rfl ((hm rfl).2 (fun h => by cases h))
      | ack => exact ShP.p6 .connected true busy up 0 (Or.inl rfl)
      | _ => exact ShP.p3 true busy up
  | p4 busy up refs hz => exact ShP.p4 busy up refs hz
  | p5 busy up refs hz => exact ShP.p5 busy up refs hz
  | p6 st reg busy up k h =>
    cases reg
    · exact ShP.p6 st false busy up k h
    · rcases h with rfl | rfl
      · cases m with
        | connect g =>
          cases g
          · exact ShP.p6 _ true busy up k (Or.inl rfl)
          · exact absurd rfl ((hm rfl).2 (fun h => by cases h))
        | data =>
          have : (.connectRequest :: .connected :: rcv k) ++ [.recv]
              = Event.connectRequest :: Event.connected :: rcv (k + 1) := by
            simp [rcv_snoc]
          show ShP ⟨.connected, true, true, busy, true, up, 1, false, false,
            (.connectRequest :: .connected :: rcv k) ++ [.recv]⟩
          rw [this]
          exact ShP.p6 _ true busy up (k + 1) (Or.inl rfl)
        | junk => exact ShP.p6 .close true busy up k (Or.inr rfl)
        | _ => exact ShP.p6 _ true busy up k (Or.inl rfl)
      · exact ShP.p6 _ true busy up k (Or.inr rfl)
  | p7 st busy up refs k hz h => exact ShP.p7 st busy up refs k hz h

theorem shP_event (e : Ep) (h : ShP e) (ht : e.thread = true) (hr : e.reg = true) :
    ∃ e', sockEvent e = some e' ∧ ShP e' := by
  cases h with
  | p0 reg busy up h => cases ht
  | p1 busy up => cases ht
  | p2 th reg busy up refs h =>
    obtain ⟨rfl, rfl⟩ := h hr
    exact ⟨_, rfl, ShP.p2 true false busy up 0 (fun h => by cases h)⟩
  | p3 reg busy up => exact ⟨_, rfl, ShP.p4 busy up 0 rfl⟩
  | p4 busy up refs hz => cases hr
  | p5 busy up refs hz => cases ht
  | p6 st reg busy up k h =>
    rcases h with rfl | rfl
    · exact ⟨_, rfl, ShP.p7 .peerClose busy up 0 k rfl (Or.inl rfl)⟩
    · exact ⟨_, rfl, ShP.p7 .close busy up 0 k rfl (Or.inr rfl)⟩
  | p7 st busy up refs k hz h => cases hr

/-- a crash needs the loss of an endpoint without a thread -/
def EarlyLoss (e : Ep) (i : Inp) : Prop := e.thread = false ∧ (i = .hup ∨ i = .leave true)

theorem shP_step (e : Ep) (h : ShP e) (i : Inp) (hi : ∀ m, i = .msg m → Allowed e m) :
    (∃ e' o, step e i = some (e', o) ∧ ShP e') ∨ (step e i = none ∧ EarlyLoss e i) := by
  cases i with
  | msg m => exact Or.inl ⟨_, _, rfl, shP_msg e h m (hi m rfl)⟩
  | hup =>
    by_cases hr : e.reg = true
    · by_cases ht : e.thread = true
      · obtain ⟨e', h1, h2⟩ := shP_event e h ht hr
        exact Or.inl ⟨e', [], by simp [step, hup, hr, h1], h2⟩
      · have ht : e.thread = false := by simpa using ht
        exact Or.inr ⟨by simp [step, hup, hr, sockEvent, ht], ht, Or.inl rfl⟩
    · have hr : e.reg = false := by simpa using hr
      exact Or.inl ⟨e, [], by simp [step, hup, hr], h⟩
  | leave b =>
    by_cases hb : e.busy = true
    · by_cases ht : e.thread = true
      · refine Or.inl ⟨{ e with busy := false }, [], by simp [step, leave, hb, ht], ?_⟩
        cases h with
        | p0 reg busy up h => cases ht
        | p1 busy up => cases ht
        | p2 th reg busy up refs h => exact ShP.p2 th reg false up refs h
        | p3 reg busy up => exact ShP.p3 reg false up
        | p4 busy up refs hz => exact ShP.p4 false up refs hz
        | p5 busy up refs hz => cases ht
        | p6 st reg busy up k h => exact ShP.p6 st reg false up k h
        | p7 st busy up refs k hz h => exact ShP.p7 st false up refs k hz h
      · have ht : e.thread = false := by simpa using ht
        cases b
        · refine Or.inl ⟨{ e with busy := false }, [], by simp [step, leave, hb, ht], ?_⟩
          cases h with
          | p0 reg busy up h => exact ShP.p0 reg false up (fun _ => rfl)
          | p1 busy up => exact ShP.p1 false up
          | p2 th reg busy up refs h => exact ShP.p2 th reg false up refs h
          | p3 reg busy up => exact ShP.p3 reg false up
          | p4 busy up refs hz => exact ShP.p4 false up refs hz
          | p5 busy up refs hz => exact ShP.p5 false up refs hz
          | p6 st reg busy up k h => exact ShP.p6 st reg false up k h
          | p7 st busy up refs k hz h => exact ShP.p7 st false up refs k hz h
        · exact Or.inr ⟨by simp [step, leave, hb, ht, sockEvent], ht, Or.inr rfl⟩
    · have hb : e.busy = false := by simpa using hb
      exact Or.inl ⟨e, [], by simp [step, leave, hb], h⟩
  | connect ok =>
    refine Or.inl ⟨_, _, rfl, ?_⟩
    cases h with
    | p0 reg busy up h => exact ShP.p0 false busy up (fun h => by cases h)
    | p1 busy up => exact ShP.p1 busy up
    | p2 th reg busy up refs h => exact ShP.p2 th false busy up refs (fun h => by cases h)
    | p3 reg busy up => exact ShP.p3 false busy up
    | p4 busy up refs hz => exact ShP.p4 busy up refs hz
    | p5 busy up refs hz => exact ShP.p5 busy up refs hz
    | p6 st reg busy up k h =>
      rcases h with rfl | rfl
      · exact ShP.p6 _ false busy up k (Or.inl rfl)
      · exact ShP.p6 _ false busy up k (Or.inr rfl)
    | p7 st busy up refs k hz h =>
      rcases h with rfl | rfl
      · exact ShP.p7 _ busy up refs k hz (Or.inl rfl)
      · exact ShP.p7 _ busy up refs k hz (Or.inr rfl)
  | sockUp =>
    refine Or.inl ⟨_, _, rfl, ?_⟩
    cases h with
    | p0 reg busy up h => cases reg <;> exact ShP.p0 _ busy up h
    | p1 busy up => exact ShP.p1 busy up
    | p2 th reg busy up refs h => cases reg <;> exact ShP.p2 th _ busy up refs h
    | p3 reg busy up => cases reg <;> exact ShP.p3 _ busy up
    | p4 busy up refs hz => exact ShP.p4 busy up refs hz
    | p5 busy up refs hz => exact ShP.p5 busy up refs hz
    | p6 st reg busy up k h =>
      rcases h with rfl | rfl
      · cases reg <;> exact ShP.p6 _ _ busy up k (Or.inl rfl)
      · cases reg <;> exact ShP.p6 _ _ busy up k (Or.inr rfl)
    | p7 st busy up refs k hz h => exact ShP.p7 st busy up refs k hz h
  | readErr =>
    refine Or.inl ⟨_, _, rfl, ?_⟩
    cases h with
    | p0 reg busy up h => cases reg <;> exact ShP.p0 _ busy up h
    | p1 busy up => exact ShP.p1 busy up
    | p2 th reg busy up refs h => cases reg <;> exact ShP.p2 th _ busy up refs h
    | p3 reg busy up => cases reg <;> exact ShP.p3 _ busy up
    | p4 busy up refs hz => exact ShP.p4 busy up refs hz
    | p5 busy up refs hz => exact ShP.p5 busy up refs hz
    | p6 st reg busy up k h =>
      rcases h with rfl | rfl
      · cases reg
        · exact ShP.p6 _ false busy up k (Or.inl rfl)
        · exact ShP.p6 .close true busy up k (Or.inr rfl)
      · cases reg <;> exact ShP.p6 _ _ busy up k (Or.inr rfl)
    | p7 st busy up refs k hz h => exact ShP.p7 st busy up refs k hz h
  | accept r =>
    refine Or.inl ⟨_, _, rfl, ?_⟩
    cases h with
    | p0 reg busy up h => exact ShP.p0 reg busy up h
    | p1 busy up =>
      cases r
      · exact ShP.p3 true busy up
      · exact ShP.p2 false false busy up 1 (fun h => by cases h)
      · exact ShP.p2 true true busy up 1 (fun _ => ⟨rfl, rfl⟩)
    | p2 th reg busy up refs h => exact ShP.p2 th reg busy up refs h
    | p3 reg busy up => exact ShP.p3 reg busy up
    | p4 busy up refs hz => exact ShP.p4 busy up refs hz
    | p5 busy up refs hz => exact ShP.p5 busy up refs hz
    | p6 st reg busy up k h => exact ShP.p6 st reg busy up k h
    | p7 st busy up refs k hz h => exact ShP.p7 st busy up refs k hz h
  | reject =>
    cases h with
    | p0 reg busy up h => exact Or.inl ⟨_, _, rfl, ShP.p0 reg busy up h⟩
    | p1 busy up => exact Or.inl ⟨_, _, rfl, ShP.p5 busy up 0 rfl⟩
    | p2 th reg busy up refs h => exact Or.inl ⟨_, _, rfl, ShP.p2 th reg busy up refs h⟩
    | p3 reg busy up => exact Or.inl ⟨_, _, rfl, ShP.p3 reg busy up⟩
    | p4 busy up refs hz => exact Or.inl ⟨_, _, rfl, ShP.p4 busy up refs hz⟩
    | p5 busy up refs hz => exact Or.inl ⟨_, _, rfl, ShP.p5 busy up refs hz⟩
    | p6 st reg busy up k h => exact Or.inl ⟨_, _, rfl, ShP.p6 st reg busy up k h⟩
    | p7 st busy up refs k hz h => exact Or.inl ⟨_, _, rfl, ShP.p7 st busy up refs k hz h⟩
  | close =>
    refine Or.inl ⟨_, _, rfl, ?_⟩
    cases h with
    | p0 reg busy up h => exact ShP.p0 reg busy up h
    | p1 busy up => exact ShP.p1 busy up
    | p2 th reg busy up refs h => exact ShP.p2 th reg busy up refs h
    | p3 reg busy up => exact ShP.p3 reg busy up
    | p4 busy up refs hz => exact ShP.p4 busy up refs hz
    | p5 busy up refs hz => exact ShP.p5 busy up refs hz
    | p6 st reg busy up k h =>
      rcases h with rfl | rfl <;> exact ShP.p6 .close reg busy up k (Or.inr rfl)
    | p7 st busy up refs k hz h =>
      rcases h with rfl | rfl <;> exact ShP.p7 .close busy up refs k hz (Or.inr rfl)

end Verif.ZapEp
