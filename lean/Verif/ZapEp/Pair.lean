import Verif.ZapEp.Proofs

/-! The pair of endpoints: what is on the way, by how far each side has come. -/

namespace Verif.ZapEp

inductive AK where
  | no
  | conn
  | rej
deriving DecidableEq

inductive PK where
  | fresh
  | wait
  | accd
  | conn
  | gone
deriving DecidableEq

def ak (e : Ep) : AK :=
  if Event.connected ∈ e.log then .conn else if Event.rejected ∈ e.log then .rej else .no

def pk (e : Ep) : PK :=
  if e.log = [] then .fresh
  else if e.gone then .gone
  else if Event.connected ∈ e.log then .conn
  else if e.acc then .accd else .wait

inductive Ch : Bool → AK → PK → List Msg → List Msg → Prop
  | c0 : Ch false .no .fresh [] []
  | c1 : Ch true .no .fresh [.connect true] []
  | c2 : Ch true .no .wait [] []
  | c3 : Ch true .no .accd [] [.accepted]
  | c4 (n : Nat) : Ch true .conn .accd (.ack :: dat n) []
  | c5 (n m : Nat) : Ch true .conn .conn (dat n) (dat m)
  | c6 : Ch true .no .gone [] [.rejected]
  | c7 : Ch true .rej .gone [] []

structure WInv (w : World) : Prop where
  a : ShA w.a
  p : ShP w.p
  ch : Ch w.a.up (ak w.a) (pk w.p) w.toP w.toA

theorem mem_rcv (x : Event) (k : Nat) (h : x ≠ .recv) : x ∉ rcv k := by
  simp [rcv, List.mem_replicate, h]

theorem ak_conn (e : Ep) (l : List Event) (h : e.log = .connected :: l) : ak e = .conn := by
  simp [ak, h]

/-- inputs other than messages at the active side -/
theorem a_local (e e' : Ep) (o : List Msg) (h : ShA e) (i : Inp) (hi : i.isMsg = false)
    (hs : step e i = some (e', o)) :
    (ak e' = ak e ∧ e'.up = e.up ∧ o = []) ∨
    (ak e' = .no ∧ ak e = .no ∧ e.up = false ∧ e'.up = true ∧ o = [.connect true]) := by
  cases i with
  | msg m => cases hi
  | connect ok =>
    simp only [step, Option.some.injEq, Prod.mk.injEq] at hs
    obtain ⟨rfl, rfl⟩ := hs
    refine Or.inl ⟨?_, ?_, rfl⟩ <;> (unfold connect; repeat' split) <;> rfl
  | sockUp =>
    simp only [step, Option.some.injEq] at hs
    unfold sockUp at hs
    split at hs
    · rename_i hc
      cases hs
      right
      cases h with
      | a1 th reg up refs h => exact ⟨rfl, rfl, hc.2.2, rfl, rfl⟩
      | a6 st th up refs k hz h => exact absurd hc.1 (by simp)
      | _ => exact absurd hc.2.1 (by simp)
    · cases hs; exact Or.inl ⟨rfl, rfl, rfl⟩
  | readErr =>
    simp only [step, Option.some.injEq, Prod.mk.injEq] at hs
    obtain ⟨rfl, rfl⟩ := hs
    refine Or.inl ⟨?_, ?_, rfl⟩ <;> (unfold readError; repeat' split) <;> rfl
  | hup =>
    left
    cases h with
    | a0 => cases hs; exact ⟨rfl, rfl, rfl⟩
    | a1 th reg up refs h =>
      cases reg
      · cases hs; exact ⟨rfl, rfl, rfl⟩
      · obtain ⟨rfl, rfl⟩ := h rfl
        cases hs; exact ⟨rfl, rfl, rfl⟩
    | a2 th up refs hz => cases hs; exact ⟨rfl, rfl, rfl⟩
    | a3 th reg up refs h =>
      cases reg
      · cases hs; exact ⟨rfl, rfl, rfl⟩
      · obtain ⟨rfl, rfl⟩ := h rfl
        cases hs; exact ⟨rfl, rfl, rfl⟩
    | a4 th reg up refs k h =>
      cases reg
      · cases hs; exact ⟨rfl, rfl, rfl⟩
      · obtain ⟨rfl, rfl⟩ := h rfl
        cases hs; exact ⟨by rw [ak_conn _ _ rfl, ak_conn _ _ rfl], rfl, rfl⟩
    | a5 th reg up refs k h =>
      cases reg
      · cases hs; exact ⟨rfl, rfl, rfl⟩
      · obtain ⟨rfl, rfl⟩ := h rfl
        cases hs; exact ⟨by rw [ak_conn _ _ rfl, ak_conn _ _ rfl], rfl, rfl⟩
    | a6 st th up refs k hz h => cases hs; exact ⟨rfl, rfl, rfl⟩
  | leave b =>
    have : step e (.leave b) = some (e, []) := by cases h <;> rfl
    rw [this] at hs; cases hs; exact Or.inl ⟨rfl, rfl, rfl⟩
  | accept r =>
    have : step e (.accept r) = some (e, []) := by cases h <;> rfl
    rw [this] at hs; cases hs; exact Or.inl ⟨rfl, rfl, rfl⟩
  | reject =>
    have : step e .reject = some (e, []) := by cases h <;> rfl
    rw [this] at hs; cases hs; exact Or.inl ⟨rfl, rfl, rfl⟩
  | close =>
    simp only [step, Option.some.injEq, Prod.mk.injEq] at hs
    obtain ⟨rfl, rfl⟩ := hs
    refine Or.inl ⟨?_, ?_, rfl⟩ <;> (unfold close; repeat' split) <;> rfl

theorem pk_conn (e : Ep) (l : List Event) (h : e.log = .connectRequest :: .connected :: l)
    (hg : e.gone = false) : pk e = .conn := by
  simp [pk, h, hg]

/-- inputs other than messages at the passive side -/
theorem p_local (e e' : Ep) (o : List Msg) (h : ShP e) (i : Inp) (hi : i.isMsg = false)
    (hs : step e i = some (e', o)) :
    (pk e' = pk e ∧ o = []) ∨ (pk e = .wait ∧ pk e' = .accd ∧ o = [.accepted]) ∨
    (pk e = .wait ∧ pk e' = .gone ∧ o = [.rejected]) := by
  cases i with
  | msg m => cases hi
  | connect ok =>
    simp only [step, Option.some.injEq, Prod.mk.injEq] at hs
    obtain ⟨rfl, rfl⟩ := hs
    refine Or.inl ⟨?_, rfl⟩ <;> (unfold connect; repeat' split) <;> rfl
  | sockUp =>
    simp only [step, Option.some.injEq] at hs
    unfold sockUp at hs
    split at hs
    · rename_i hc
      cases h with
      | p6 st reg busy up k h => rcases h with rfl | rfl <;> exact absurd hc.2.1 (by simp)
      | p7 st busy up refs k hz h => exact absurd hc.1 (by simp)
      | _ => exact absurd hc.2.1 (by simp)
    · cases hs; exact Or.inl ⟨rfl, rfl⟩
  | readErr =>
    simp only [step, Option.some.injEq, Prod.mk.injEq] at hs
    obtain ⟨rfl, rfl⟩ := hs
    refine Or.inl ⟨?_, rfl⟩ <;> (unfold readError; repeat' split) <;> rfl
  | hup =>
    left
    cases h with
    | p0 reg busy up h =>
      cases reg
      · cases hs; exact ⟨rfl, rfl⟩
      · cases hs
    | p1 busy up => cases hs; exact ⟨rfl, rfl⟩
    | p2 th reg busy up refs h =>
      cases reg
      · cases hs; exact ⟨rfl, rfl⟩
      · obtain ⟨rfl, rfl⟩ := h rfl
        cases hs; exact ⟨rfl, rfl⟩
    | p3 reg busy up =>
      cases reg
      · cases hs; exact ⟨rfl, rfl⟩
      · cases hs; exact ⟨rfl, rfl⟩
    | p4 busy up refs hz => cases hs; exact ⟨rfl, rfl⟩
    | p5 busy up refs hz => cases hs; exact ⟨rfl, rfl⟩
    | p6 st reg busy up k h =>
      cases reg
      · cases hs; exact ⟨rfl, rfl⟩
      · rcases h with rfl | rfl
        · cases hs; exact ⟨by rw [pk_conn _ _ rfl rfl, pk_conn _ _ rfl rfl], rfl⟩
        · cases hs; exact ⟨by rw [pk_conn _ _ rfl rfl, pk_conn _ _ rfl rfl], rfl⟩
    | p7 st busy up refs k hz h => cases hs; exact ⟨rfl, rfl⟩
  | leave b =>
    left
    simp only [step, leave] at hs
    split at hs
    · split at hs
      · rename_i hc
        simp [sockEvent, hc.1] at hs
      · simp only [Option.map_some, Option.some.injEq, Prod.mk.injEq] at hs
        obtain ⟨rfl, rfl⟩ := hs
        exact ⟨rfl, rfl⟩
    · simp only [Option.map_some, Option.some.injEq, Prod.mk.injEq] at hs
      obtain ⟨rfl, rfl⟩ := hs
      exact ⟨rfl, rfl⟩
  | accept r =>
    cases h with
    | p1 busy up =>
      cases r
      · cases hs; exact Or.inr (Or.inl ⟨rfl, rfl, rfl⟩)
      · cases hs; exact Or.inl ⟨rfl, rfl⟩
      · cases hs; exact Or.inl ⟨rfl, rfl⟩
    | _ => cases hs; exact Or.inl ⟨rfl, rfl⟩
  | reject =>
    cases h with
    | p1 busy up => cases hs; exact Or.inr (Or.inr ⟨rfl, rfl, rfl⟩)
    | _ => cases hs; exact Or.inl ⟨rfl, rfl⟩
  | close =>
    simp only [step, Option.some.injEq, Prod.mk.injEq] at hs
    obtain ⟨rfl, rfl⟩ := hs
    refine Or.inl ⟨?_, rfl⟩ <;> (unfold close; repeat' split) <;> rfl

theorem inv_world : WInv world := ⟨ShA.a0, ShP.p0 true false true (fun _ => rfl), Ch.c0⟩

theorem isMsg_ne {i : Inp} (h : i.isMsg = false) (m : Msg) : i ≠ .msg m := by
  rintro rfl; cases h

theorem deliverA_inv (w : World) (h : WInv w) (m : Msg) (q : List Msg) (hq : w.toA = m :: q)
    (hr : w.a.reg = true) :
    WInv ⟨(msg w.a m).1, w.p, w.toP ++ (msg w.a m).2, q⟩ := by
  obtain ⟨a, p, toP, toA⟩ := w
  obtain ⟨ha, hp, hc⟩ := h
  simp only at hq hr ha hp hc ⊢
  subst hq
  generalize hu : a.up = u at hc
  generalize hk : ak a = k at hc
  generalize hpk : pk p = kp at hc
  generalize hto : m :: q = l at hc
  cases hc with
  | c0 => cases hto
  | c1 => cases hto
  | c2 => cases hto
  | c3 =>
    cases hto
    refine ⟨shA_msg _ ha _ (by simp), hp, ?_⟩
    cases ha with
    | a1 th reg up refs h =>
      cases hr; cases hu
      rw [show pk p = PK.accd from hpk]
      exact Ch.c4 0
    | a0 => cases hr
    | a2 th up refs hz => cases hr
    | a3 th reg up refs h => simp [ak] at hk
    | a4 th reg up refs k h => simp [ak] at hk
    | a5 th reg up refs k h => simp [ak] at hk
    | a6 st th up refs k hz h => cases hr
  | c4 n => cases hto
  | c5 n m' =>
    cases m' with
    | zero => cases hto
    | succ m' =>
      cases hto
      refine ⟨shA_msg _ ha _ (by simp), hp, ?_⟩
      cases ha with
      | a4 th reg up refs k h =>
        cases hr; cases hu
        have := Ch.c5 n m'
        rw [show pk p = PK.conn from hpk]
        show Ch true _ _ (dat n ++ []) _
        rw [List.append_nil]
        exact this
      | a5 th reg up refs k h =>
        cases hr; cases hu
        rw [show pk p = PK.conn from hpk]
        show Ch true _ _ (dat n ++ []) _
        rw [List.append_nil]
        exact Ch.c5 n m'
      | a0 => cases hr
      | a1 th reg up refs h => simp [ak] at hk
      | a2 th up refs hz => cases hr
      | a3 th reg up refs h => simp [ak] at hk
      | a6 st th up refs k hz h => cases hr
  | c6 =>
    cases hto
    refine ⟨shA_msg _ ha _ (by simp), hp, ?_⟩
    cases ha with
    | a1 th reg up refs h =>
      cases hr; cases hu
      rw [show pk p = PK.gone from hpk]
      exact Ch.c7
    | a0 => cases hr
    | a2 th up refs hz => cases hr
    | a3 th reg up refs h => simp [ak] at hk
    | a4 th reg up refs k h => simp [ak] at hk
    | a5 th reg up refs k h => simp [ak] at hk
    | a6 st th up refs k hz h => cases hr
  | c7 => cases hto

theorem deliverP_inv (w : World) (h : WInv w) (m : Msg) (q : List Msg) (hq : w.toP = m :: q)
    (hr : w.p.reg = true) :
    WInv ⟨w.a, (msg w.p m).1, q, w.toA ++ (msg w.p m).2⟩ := by
  obtain ⟨a, p, toP, toA⟩ := w
  obtain ⟨ha, hp, hc⟩ := h
  simp only at hq hr ha hp hc ⊢
  subst hq
  generalize hu : a.up = u at hc
  generalize hk : ak a = k at hc
  generalize hpk : pk p = kp at hc
  generalize hto : m :: q = l at hc
  cases hc with
  | c0 => cases hto
  | c1 =>
    cases hto
    cases hp with
    | p0 reg busy up h =>
      cases hr
      refine ⟨ha, ShP.p1 true up, ?_⟩
      show Ch a.up (ak a) _ [] []
      rw [hu, hk]
      exact Ch.c2
    | p2 th reg busy up refs h => simp [pk] at hpk
    | p3 reg busy up => simp [pk] at hpk
    | p6 st reg busy up k h => simp [pk] at hpk
    | p1 busy up => cases hr
    | p4 busy up refs hz => cases hr
    | p5 busy up refs hz => cases hr
    | p7 st busy up refs k hz h => cases hr
  | c2 => cases hto
  | c3 => cases hto
  | c4 n =>
    cases hto
    cases hp with
    | p3 reg busy up =>
      cases hr
      refine ⟨ha, ShP.p6 .connected true busy up 0 (Or.inl rfl), ?_⟩
      show Ch a.up (ak a) _ (dat n) (dat 0)
      rw [hu, hk]
      exact Ch.c5 n 0
    | p0 reg busy up h => simp [pk] at hpk
    | p2 th reg busy up refs h => simp [pk] at hpk
    | p6 st reg busy up k h => simp [pk] at hpk
    | p1 busy up => cases hr
    | p4 busy up refs hz => cases hr
    | p5 busy up refs hz => cases hr
    | p7 st busy up refs k hz h => cases hr
  | c5 n m' =>
    cases n with
    | zero => cases hto
    | succ n =>
      cases hto
      cases hp with
      | p6 st reg busy up k h =>
        cases hr
        refine ⟨ha, ?_, ?_⟩
        · exact shP_msg _ (ShP.p6 st true busy up k h) .data
            (fun _ => ⟨fun h => by simp at h, fun _ => by simp⟩)
        · show Ch a.up (ak a) _ (dat n) (dat m' ++ _)
          rw [hu, hk]
          rcases h with rfl | rfl
          · show Ch true _ _ (dat n) (dat m' ++ [])
            rw [List.append_nil]
            exact Ch.c5 n m'
          · show Ch true _ _ (dat n) (dat m' ++ [])
            rw [List.append_nil]
            exact Ch.c5 n m'
      | p0 reg busy up h => simp [pk] at hpk
      | p2 th reg busy up refs h => simp [pk] at hpk
      | p3 reg busy up => simp [pk] at hpk
      | p1 busy up => cases hr
      | p4 busy up refs hz => cases hr
      | p5 busy up refs hz => cases hr
      | p7 st busy up refs k hz h => cases hr
  | c6 => cases hto
  | c7 => cases hto

theorem sendA_ch {u : Bool} {k : AK} {pkk : PK} {x y : List Msg} (h : Ch u k pkk x y) (hk : k = .conn) :
    Ch u k pkk (x ++ [.data]) y := by
  cases h <;> cases hk
  · rename_i n
    show Ch true .conn .accd (.ack :: (dat n ++ [.data])) []
    rw [dat_snoc]
    exact Ch.c4 (n + 1)
  · rename_i n m
    rw [dat_snoc]
    exact Ch.c5 (n + 1) m

theorem sendP_ch {u : Bool} {k : AK} {pkk : PK} {x y : List Msg} (h : Ch u k pkk x y) (hk : pkk = .conn) :
    Ch u k pkk x (y ++ [.data]) := by
  cases h <;> cases hk
  rename_i n m
  rw [dat_snoc]
  exact Ch.c5 n (m + 1)

theorem wstep_inv (w : World) (h : WInv w) (i : WInp) :
    (∃ w', wstep w i = some w' ∧ WInv w') ∨
    (wstep w i = none ∧ ∃ j, i = .atP j ∧ EarlyLoss w.p j) := by
  cases i with
  | atA i =>
    left
    cases hm : i.isMsg with
    | true => exact ⟨w, by simp [wstep, hm], h⟩
    | false =>
      obtain ⟨e', o, h1, h2⟩ := shA_step w.a h.a i (isMsg_ne hm _)
      refine ⟨⟨e', w.p, w.toP ++ o, w.toA⟩, by simp [wstep, hm, h1], h2, h.p, ?_⟩
      rcases a_local w.a e' o h.a i hm h1 with ⟨k1, k2, rfl⟩ | ⟨k1, k2, k3, k4, rfl⟩
      · simp only [k1, k2, List.append_nil]; exact h.ch
      · have hc := h.ch
        simp only [k1, k4]
        rw [k2, k3] at hc
        generalize hx : w.toP = x at hc ⊢
        generalize hy : w.toA = y at hc ⊢
        generalize hz : pk w.p = z at hc ⊢
        cases hc
        exact Ch.c1
  | atP i =>
    cases hm : i.isMsg with
    | true => exact Or.inl ⟨w, by simp [wstep, hm], h⟩
    | false =>
      rcases shP_step w.p h.p i (fun m hmm => absurd hmm (isMsg_ne hm m)) with ⟨e', o, h1, h2⟩ | ⟨h1, h2⟩
      · left
        refine ⟨⟨w.a, e', w.toP, w.toA ++ o⟩, by simp [wstep, hm, h1], h.a, h2, ?_⟩
        have hc := h.ch
        rcases p_local w.p e' o h.p i hm h1 with ⟨k1, rfl⟩ | ⟨k1, k2, rfl⟩ | ⟨k1, k2, rfl⟩
        · simp only [k1, List.append_nil]; exact hc
        · simp only [k2]
          rw [k1] at hc
          generalize hx : w.toP = x at hc ⊢
          generalize hy : w.toA = y at hc ⊢
          generalize hz : ak w.a = z at hc ⊢
          generalize hu : w.a.up = u at hc ⊢
          cases hc
          exact Ch.c3
        · simp only [k2]
          rw [k1] at hc
          generalize hx : w.toP = x at hc ⊢
          generalize hy : w.toA = y at hc ⊢
          generalize hz : ak w.a = z at hc ⊢
          generalize hu : w.a.up = u at hc ⊢
          cases hc
          exact Ch.c6
      · exact Or.inr ⟨by simp [wstep, hm, h1], i, rfl, h2⟩
  | deliverA =>
    left
    cases hq : w.toA with
    | nil => exact ⟨w, by simp [wstep, hq], h⟩
    | cons m q =>
      cases hr : w.a.reg with
      | false => exact ⟨w, by simp [wstep, hq, hr], h⟩
      | true => exact ⟨_, by simp only [wstep, hq, hr]; rfl, deliverA_inv w h m q hq hr⟩
  | deliverP =>
    left
    cases hq : w.toP with
    | nil => exact ⟨w, by simp [wstep, hq], h⟩
    | cons m q =>
      cases hr : w.p.reg with
      | false => exact ⟨w, by simp [wstep, hq, hr], h⟩
      | true => exact ⟨_, by simp only [wstep, hq, hr]; rfl, deliverP_inv w h m q hq hr⟩
  | sendA =>
    left
    refine ⟨_, rfl, ?_⟩
    split
    · rename_i hc
      refine ⟨h.a, h.p, sendA_ch h.ch ?_⟩
      have ha := h.a
      generalize w.a = a at ha hc
      cases ha with
      | a4 th reg up refs k h => exact ak_conn _ _ rfl
      | a6 st th up refs k hz h => exact ak_conn _ _ rfl
      | _ => cases hc
    · exact h
  | sendP =>
    left
    refine ⟨_, rfl, ?_⟩
    split
    · rename_i hc
      refine ⟨h.a, h.p, sendP_ch h.ch ?_⟩
      have hp := h.p
      generalize w.p = p at hp hc
      cases hp with
      | p6 st reg busy up k h => exact pk_conn _ _ rfl rfl
      | p7 st busy up refs k hz h => exact pk_conn _ _ rfl rfl
      | _ => cases hc
    · exact h

theorem wrun_inv (is : List WInp) : ∀ w w' : World, WInv w → wrun w is = some w' → WInv w' := by
  induction is with
  | nil => intro w w' h hr; cases hr; exact h
  | cons i is ih =>
    intro w w' h hr
    rcases wstep_inv w h i with ⟨w1, h1, h2⟩ | ⟨h1, _⟩
    · simp only [wrun, h1, Option.bind_some] at hr
      exact ih w1 w' h2 hr
    · simp [wrun, h1] at hr

end Verif.ZapEp
