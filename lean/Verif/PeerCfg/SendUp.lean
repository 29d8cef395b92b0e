import Verif.PeerCfg.Send
import Verif.Strgp.Props

/-!
# Proofs: what the messages of an updater and of a policy make
-/

namespace Verif.PeerCfg

open Verif.SetOwner (Str strtol u32 dec oct numeral)
open Verif.NameTab (codes)
open Verif.Dump (eqi us ld toC ofC)
open Verif.Strgp (Pol Sel Who)

/-! ## an updater -/

theorem set_last_updtr {d : Daemon} {n : Str} {q : Updtr} {f : Updtr → Updtr} (hn : ∀ u ∈ d.ups, u.name ≠ n) (hq : q.name = n) :
    ({ d with ups := d.ups ++ [q] } : Daemon).setUpdtr n f = { d with ups := d.ups ++ [f q] } := by
  unfold Daemon.setUpdtr
  have : d.ups.map (fun p => if p.name = n then f p else p) = d.ups := by
    conv => rhs; rw [← List.map_id d.ups]
    exact List.map_congr_left fun p hp => by rw [if_neg (hn p hp)]; rfl
  simp only [List.map_append, List.map_cons, List.map_nil, this, hq, if_true]

theorem producers_made (w : World) (n : Str) (h : Name n) : ∀ (ps : List Str) (d : Daemon) (q : Updtr), (∀ p ∈ ps, Name p) →
    (∀ p ∈ ps, (d.prds.any fun r => r.name = 35 :: p) = true) → (q.prdcrs ++ ps.map (35 :: ·)).Nodup → (∀ u ∈ d.ups, u.name ≠ 35 :: n) →
    q.name = 35 :: n → q.running = false →
    receiveAll w { d with ups := d.ups ++ [q] } (ps.map fun p => ⟨.updtr, some (peerName n), [(.producer, peerName p)]⟩) =
      .ok { d with ups := d.ups ++ [{ q with
        push := if ps = [] then q.push else 0
        prdcrs := q.prdcrs ++ ps.map (35 :: ·) }] }
  | [], d, q, _, _, _, _, _, _ => by simp [receiveAll]
  | p :: ps, d, q, hp, ht, hd, hn, hq, hr => by
    rw [List.map_cons, receiveAll, receive_named .updtr _ h]
    dsimp only
    unfold updtrMsg
    rw [if_pos (by simp [hq])]
    rw [set_last_updtr hn hq]
    have e : updtrOld w ⟨.updtr, some (peerName n), [(.producer, peerName p)]⟩ q = { q with push := 0 } := rfl
    rw [e]
    have g : Msg.get w ⟨.updtr, some (peerName n), [(.producer, peerName p)]⟩ .producer = some (35 :: p) := by
      have := expand_text w (peer_text (hp p (by simp)))
      rw [← peerName_eq (hp p (by simp))] at this
      rw [← peerName_eq (hp p (by simp))]
      exact this
    unfold updtrParts
    rw [g]
    dsimp only
    rw [if_pos (ht p (by simp))]
    have hnotin : 35 :: p ∉ q.prdcrs := fun hh => (List.nodup_append.1 hd).2.2 _ hh (35 :: p) (by simp) rfl
    have e2 : ∀ d' : Daemon, updtrParts.mat w (35 :: n) ⟨.updtr, some (peerName n), [(.producer, peerName p)]⟩ d' = d' := fun _ => rfl
    rw [e2]
    rw [show ({ q with push := 0 } : Updtr).name = q.name from rfl] at *
    have e3 := set_last_updtr (d := d) (n := 35 :: n) (q := { q with push := 0 }) (f := addPrdcr (35 :: p)) hn hq
    rw [e3]
    have e4 : addPrdcr (35 :: p) { q with push := 0 } = { q with
        push := 0
        prdcrs := q.prdcrs ++ [35 :: p] } := by
      unfold addPrdcr
      rw [if_neg (by simp [hr, hnotin])]
    rw [e4]
    refine (producers_made w n h ps d { q with
        push := 0
        prdcrs := q.prdcrs ++ [35 :: p] } (fun x hx => hp x (by simp [hx])) (fun x hx => ht x (by simp [hx])) (by simpa using hd) hn hq hr).trans ?_
    simp

theorem matches_made (w : World) (n : Str) (h : Name n) : ∀ (ms : List (Bool × Str)) (d : Daemon) (q : Updtr),
    (∀ m ∈ ms, Text m.2 ∧ w.se.regexOk m.2 = true) → (ms ≠ [] → Changes w w.peer q.uid q.gid q.perm) → (∀ u ∈ d.ups, u.name ≠ 35 :: n) →
    q.name = 35 :: n → q.running = false →
    receiveAll w { d with ups := d.ups ++ [q] }
      (ms.map fun m => ⟨.updtr, some (peerName n), [(.match', if m.1 then codes "inst" else codes "schema"), (.regex, m.2)]⟩) =
      .ok { d with ups := d.ups ++ [{ q with
        push := if ms = [] then q.push else 0
        mats := ms.reverse ++ q.mats }] }
  | [], d, q, _, _, _, _, _ => by simp [receiveAll]
  | m :: ms, d, q, ht, hc, hn, hq, hr => by
    rw [List.map_cons, receiveAll, receive_named .updtr _ h]
    dsimp only
    unfold updtrMsg
    rw [if_pos (by simp [hq])]
    rw [set_last_updtr hn hq]
    generalize hmsg : Msg.mk What.updtr (some (peerName n)) [(Attr.match', if m.1 = true then codes "inst" else codes "schema"), (Attr.regex, m.2)] = msg
    have e : updtrOld w msg q = { q with push := 0 } := by subst hmsg; rfl
    have g0 : msg.get w .producer = none := by subst hmsg; rfl
    have g1 : msg.get w .match' = some (if m.1 then codes "inst" else codes "schema") := by
      subst hmsg
      have : Text (if m.1 = true then codes "inst" else codes "schema") := by
        split
        · exact inst_text
        · exact schema_text
      exact expand_text w this
    have g2 : msg.get w .regex = some m.2 := by subst hmsg; exact expand_text w (ht m (by simp)).1
    have g3 : (owner w msg).1 = w.peer := by subst hmsg; rfl
    rw [e]
    unfold updtrParts updtrParts.mat
    rw [g0]
    dsimp only
    rw [g1, g2, g3]
    dsimp only
    have e3 := set_last_updtr (d := d) (n := 35 :: n) (q := { q with push := 0 })
      (f := addMatch w w.peer (if m.1 then codes "inst" else codes "schema") m.2) hn hq
    rw [e3]
    have e4 : addMatch w w.peer (if m.1 then codes "inst" else codes "schema") m.2 { q with push := 0 } = { q with
        push := 0
        mats := m :: q.mats } := by
      unfold addMatch
      have ha : allowed w w.peer q.uid q.gid q.perm = true := hc (by simp)
      rw [if_neg (by simp [hr, ha])]
      obtain ⟨b, x⟩ := m
      have hx := (ht (b, x) (by simp)).2
      cases b
      · rw [show (if (false, x).1 = true then codes "inst" else codes "schema") = codes "schema" from rfl, if_pos (by decide +kernel)]
        dsimp only at hx ⊢
        rw [if_pos hx]
      · rw [show (if (true, x).1 = true then codes "inst" else codes "schema") = codes "inst" from rfl, if_neg (by decide +kernel),
          if_pos (by decide +kernel)]
        dsimp only at hx ⊢
        rw [if_pos hx]
    rw [e4]
    refine (matches_made w n h ms d { q with
        push := 0
        mats := m :: q.mats } (fun x hx => ht x (by simp [hx])) (fun _ => hc (by simp)) hn hq hr).trans ?_
    simp

/-- the first message of an updater -/
theorem updtr_first {w : World} {u : Updtr} {ps : List Str} (d : Daemon) (h : FineUpdtr w ps u) (hs : w.skew.natAbs < 2 ^ 31)
    (hn : ∀ q ∈ d.ups, q.name ≠ 35 :: u.name) : ∀ m, (sendUpdtr u).head? = some m → receive w d m = .ok { d with
      ups := d.ups ++ [{ updtrPeer w u with
        push := if u.push % 2 = 1 then (if u.push / 2 % 2 = 1 then 3 else 1) else 0
        prdcrs := []
        mats := [] }]
      peerUps := d.peerUps ++ [(35 :: u.name, false)] } := by
  intro m hm
  unfold sendUpdtr at hm
  simp only [List.cons_append, List.head?_cons, Option.some.injEq] at hm
  subst hm
  rw [receive_named .updtr _ h.name]
  dsimp only
  unfold updtrMsg
  rw [if_neg (by simpa using hn)]
  have hi := Dump.us_ld u.hintIvl (by have := h.interval; omega)
  have hoff : u.sync = true → us (ld u.off) = some u.off := fun hs => Dump.us_ld u.off (by have := h.interval; have := h.offset hs; omega)
  have hauto : ∀ (a b : Str), Text a → Text b → Text (if u.auto = true then a else b) := by intro a b ha hb; split <;> assumption
  have hno : u.sync = true → u.off - w.skew ≠ noOffset := fun hs => by
    have := h.interval; have := h.offset hs; unfold noOffset; omega
  have hsend : ∀ t : Str, t = (if u.push / 2 % 2 = 1 then codes "onchange" else codes "onpush") → Text t := by
    intro t ht; subst ht; split
    · exact onchange_text
    · exact onpush_text
  have hpush : pushOf (some (if u.push / 2 % 2 = 1 then codes "onchange" else codes "onpush")) = if u.push / 2 % 2 = 1 then 3 else 1 := by
    unfold pushOf
    by_cases c : u.push / 2 % 2 = 1
    · rw [if_pos c, if_pos c]; dsimp only; rw [if_pos (by decide +kernel)]
    · rw [if_neg c, if_neg c]; dsimp only; rw [if_neg (by decide +kernel)]
  unfold updtrNew updtrParts updtrParts.mat owner
  by_cases c1 : u.sync = true <;> by_cases c2 : u.push % 2 = 1 <;>
    simp only [c1, c2, if_true, if_false, Bool.false_eq_true, List.nil_append, List.cons_append, Msg.get, List.find?, decide_true, decide_false, reduceCtorEq,
      expand_text w (dec_text _), expand_text w (ld_text _), expand_text w (octal_text _),
      expand_text w (hauto _ _ (ld_text _) false_text), expand_text w (hsend _ rfl), Option.map_some,
      Option.getD_some, Option.getD_none, times, hi, strtoul_dec _ h.ids.1, strtoul_dec _ h.ids.2.1, strtoul_octal _ h.ids.2.2, Option.isNone_some,
      hpush] <;> rw [if_neg (by have := h.interval; omega)]
  all_goals first
    | (rw [hoff c1]; dsimp only; rw [if_neg (by have := h.offset c1; omega)]; dsimp only; simp [taskInit, updtrPeer, hno c1, c1, pushOf])
    | (simp [taskInit, updtrPeer, noOffset, c1, pushOf])

theorem updtr_made {w : World} {u : Updtr} {ps : List Str} (d : Daemon) (h : FineUpdtr w ps u) (hs : w.skew.natAbs < 2 ^ 31)
    (hps : ∀ p ∈ ps, Name p ∧ (d.prds.any fun r => r.name = 35 :: p) = true) (hn : ∀ q ∈ d.ups, q.name ≠ 35 :: u.name) :
    receiveAll w d (sendUpdtr u) = .ok { d with
      ups := d.ups ++ [updtrPeer w u]
      peerUps := d.peerUps ++ [(35 :: u.name, false)] } := by
  have h0 := updtr_first d h hs hn _ rfl
  unfold sendUpdtr at *
  rw [List.cons_append, receiveAll, h0]
  dsimp only
  rw [receiveAll_append]
  rw [producers_made w u.name h.name u.prdcrs { d with peerUps := d.peerUps ++ [(35 :: u.name, false)] } { updtrPeer w u with
        push := if u.push % 2 = 1 then (if u.push / 2 % 2 = 1 then 3 else 1) else 0
        prdcrs := []
        mats := [] } (fun p hp => (hps p (h.there p hp)).1) (fun p hp => (hps p (h.there p hp)).2)
    (by
      rw [List.nil_append]
      exact List.Pairwise.map (35 :: ·) (fun a b h e => h (List.cons.inj e).2) h.distinct) hn rfl rfl]
  dsimp only
  refine (matches_made w u.name h.name u.mats { d with peerUps := d.peerUps ++ [(35 :: u.name, false)] } { updtrPeer w u with
        push := if u.prdcrs = [] then (if u.push % 2 = 1 then (if u.push / 2 % 2 = 1 then 3 else 1) else 0) else 0
        prdcrs := [] ++ u.prdcrs.map (35 :: ·)
        mats := [] } h.regex h.change hn rfl rfl).trans ?_
  have : (if u.mats = [] then (if u.prdcrs = [] then (if u.push % 2 = 1 then (if u.push / 2 % 2 = 1 then 3 else 1) else 0) else 0) else 0) =
      (updtrPeer w u).push := by
    unfold updtrPeer
    by_cases c1 : u.mats = [] <;> by_cases c2 : u.prdcrs = [] <;> simp [c1, c2]
  dsimp only
  rw [this]
  simp [updtrPeer]

theorem updtrs_made {w : World} (hs : w.skew.natAbs < 2 ^ 31) (ps : List Str) : ∀ (us : List Updtr) (d : Daemon),
    (∀ u ∈ us, FineUpdtr w ps u) → (∀ p ∈ ps, Name p ∧ (d.prds.any fun r => r.name = 35 :: p) = true) →
    (us.map (·.name)).Nodup → (∀ u ∈ us, ∀ q ∈ d.ups, q.name ≠ 35 :: u.name) →
    receiveAll w d (us.flatMap sendUpdtr) = .ok { d with
      ups := d.ups ++ us.map (updtrPeer w)
      peerUps := d.peerUps ++ us.map fun u => (35 :: u.name, false) }
  | [], d, _, _, _, _ => by simp [receiveAll]
  | u :: us, d, h, hps, hd, hn => by
    rw [List.map_cons, List.nodup_cons] at hd
    rw [List.flatMap_cons, receiveAll_append, updtr_made d (h u (by simp)) hs hps (hn u (by simp))]
    dsimp only
    rw [updtrs_made hs ps us { d with
      ups := d.ups ++ [updtrPeer w u]
      peerUps := d.peerUps ++ [(35 :: u.name, false)] } (fun q hq => h q (by simp [hq])) hps hd.2 (by
      intro q hq r hr
      dsimp only at hr
      rw [List.mem_append, List.mem_singleton] at hr
      rcases hr with hr | rfl
      · exact hn q (by simp [hq]) r hr
      · intro e
        simp only [updtrPeer, List.cons.injEq, true_and] at e
        exact hd.1 (by rw [e]; exact List.mem_map_of_mem hq))]
    simp

/-! ## a policy -/

theorem find_last {s : Strgp.State} {n : Str} {q : Pol} (hn : ∀ p ∈ s.pols, p.name ≠ n) (hq : q.name = n) :
    Strgp.find { s with pols := s.pols ++ [q] } n = some q := by
  unfold Strgp.find
  rw [List.find?_append, List.find?_eq_none.2 (by simpa using hn)]
  simp [hq]

theorem set_last_pol {s : Strgp.State} {q q' : Pol} (hn : ∀ p ∈ s.pols, p.name ≠ q'.name) (hq : q.name = q'.name) :
    ({ s with pols := s.pols ++ [q] } : Strgp.State).set q' = { s with pols := s.pols ++ [q'] } := by
  unfold Strgp.State.set
  have : s.pols.map (fun p => if p.name = q'.name then q' else p) = s.pols := by
    conv => rhs; rw [← List.map_id s.pols]
    exact List.map_congr_left fun p hp => by rw [if_neg (hn p hp)]; rfl
  simp only [List.map_append, List.map_cons, List.map_nil, this, hq, if_true]

/-- a policy that came from the peer, in the making -/
structure Fresh (w : World) (n : Str) (q : Pol) : Prop where
  name : q.name = 35 :: n
  uid : q.uid = w.peer.uid
  gid : q.gid = w.peer.gid
  perm : q.perm = 448
  stopped : q.running = false

theorem fresh_allowed {w : World} {n : Str} {q : Pol} (h : Fresh w n q) : Strgp.allowed w.se ⟨w.peer.uid, w.peer.gid⟩ q = true := by
  unfold Strgp.allowed
  rw [h.uid, h.gid, h.perm]
  exact Dump.may_owner { w.toWorld with who := ⟨w.peer.uid, w.peer.gid⟩ } 448 (by decide)

/-- a message that adds a producer or a metric -/
theorem pol_part {w : World} {n : Str} {d : Daemon} {q : Pol} {as : List (Attr × Str)} {rx mt : Option Str} {q' : Pol} (h : Name n)
    (hn : ∀ p ∈ d.st.pols, p.name ≠ 35 :: n) (hq : Fresh w n q) (hq' : q'.name = 35 :: n)
    (h0 : ∀ m : Msg, m.attrs = as → m.get w .regex = rx ∧ m.get w .metric = mt ∧ owner w m = (⟨w.peer.uid, w.peer.gid⟩, 448))
    (hp : (∃ r, rx = some r ∧ mt = none ∧ Strgp.prdcrAdd w.se r q = .ok q') ∨ (∃ m, rx = none ∧ mt = some m ∧ Strgp.metricAdd m q = .ok q')) :
    receive w { d with st := { d.st with pols := d.st.pols ++ [q] } } ⟨.strgp, some (peerName n), as⟩ =
      .ok { d with st := { d.st with pols := d.st.pols ++ [q'] } } := by
  rw [receive_named .strgp _ h]
  dsimp only
  unfold polMsg
  obtain ⟨g1, g2, g3⟩ := h0 ⟨.strgp, some (peerName n), as⟩ rfl
  have hf : Strgp.find { d.st with pols := d.st.pols ++ [q] } (35 :: n) = some q := find_last hn hq.name
  have hset := set_last_pol (s := d.st) (q := q) (q' := q') (by rw [hq']; exact hn) (by rw [hq', hq.name])
  simp only [Strgp.step, Strgp.peer, Strgp.peerNew, hf, g1, g2, g3]
  rcases hp with ⟨r, rfl, rfl, e⟩ | ⟨m, rfl, rfl, e⟩
  · simp only [Strgp.part, Strgp.config, hf, fresh_allowed hq, hq.stopped, Bool.true_eq_false, Bool.false_eq_true, if_false, e, hset]
    simp
  · simp only [Strgp.part, ne_eq, not_true_eq_false, if_false, Strgp.config, hf, fresh_allowed hq, hq.stopped, Bool.true_eq_false, Bool.false_eq_true, e, hset]
    simp

theorem pol_prdcrs (w : World) (n : Str) (h : Name n) : ∀ (rs : List Str) (d : Daemon) (q : Pol),
    (∀ r ∈ rs, Text r ∧ w.se.regexOk r = true) → (∀ p ∈ d.st.pols, p.name ≠ 35 :: n) → Fresh w n q →
    receiveAll w { d with st := { d.st with pols := d.st.pols ++ [q] } } (rs.map fun r => ⟨.strgp, some (peerName n), [(.regex, r)]⟩) =
      .ok { d with st := { d.st with pols := d.st.pols ++ [{ q with prdcrs := rs.reverse ++ q.prdcrs }] } }
  | [], d, q, _, _, _ => by simp [receiveAll]
  | r :: rs, d, q, hr, hn, hq => by
    rw [List.map_cons, receiveAll]
    rw [pol_part (q' := { q with prdcrs := r :: q.prdcrs }) h hn hq hq.name (rx := some r) (mt := none) (by
      intro m hm
      refine ⟨?_, ?_, ?_⟩
      · unfold Msg.get; rw [hm]; exact expand_text w (hr r (by simp)).1
      · unfold Msg.get; rw [hm]; rfl
      · unfold owner Msg.get; rw [hm]; rfl) (.inl ⟨r, rfl, rfl, by unfold Strgp.prdcrAdd; rw [if_pos (hr r (by simp)).2]⟩)]
    dsimp only
    refine (pol_prdcrs w n h rs d { q with prdcrs := r :: q.prdcrs } (fun x hx => hr x (by simp [hx])) hn
      ⟨hq.name, hq.uid, hq.gid, hq.perm, hq.stopped⟩).trans ?_
    simp

theorem pol_metrics (w : World) (n : Str) (h : Name n) : ∀ (ms : List Str) (d : Daemon) (q : Pol),
    (∀ m ∈ ms, Text m) → (q.metrics ++ ms).Nodup → (∀ p ∈ d.st.pols, p.name ≠ 35 :: n) → Fresh w n q →
    receiveAll w { d with st := { d.st with pols := d.st.pols ++ [q] } } (ms.map fun m => ⟨.strgp, some (peerName n), [(.metric, m)]⟩) =
      .ok { d with st := { d.st with pols := d.st.pols ++ [{ q with metrics := q.metrics ++ ms }] } }
  | [], d, q, _, _, _, _ => by simp [receiveAll]
  | r :: rs, d, q, hr, hd, hn, hq => by
    have hnot : r ∉ q.metrics := fun hh => (List.nodup_append.1 hd).2.2 _ hh r (by simp) rfl
    rw [List.map_cons, receiveAll]
    rw [pol_part (q' := { q with metrics := q.metrics ++ [r] }) h hn hq hq.name (rx := none) (mt := some r) (by
      intro m hm
      refine ⟨?_, ?_, ?_⟩
      · unfold Msg.get; rw [hm]; rfl
      · unfold Msg.get; rw [hm]; exact expand_text w (hr r (by simp))
      · unfold owner Msg.get; rw [hm]; rfl) (.inr ⟨r, rfl, rfl, by unfold Strgp.metricAdd; rw [if_neg hnot]⟩)]
    dsimp only
    refine (pol_metrics w n h rs d { q with metrics := q.metrics ++ [r] } (fun x hx => hr x (by simp [hx])) (by simpa using hd) hn
      ⟨hq.name, hq.uid, hq.gid, hq.perm, hq.stopped⟩).trans ?_
    simp

theorem pol_made {w : World} {p : Pol} (d : Daemon) (h : FinePol w p) (hn : ∀ q ∈ d.st.pols, q.name ≠ 35 :: p.name) :
    ∃ ms, sendPol p = .ok ms ∧ receiveAll w d ms = .ok { d with
      st := { d.st with pols := d.st.pols ++ [polPeer w p] }
      peerPols := d.peerPols ++ [35 :: p.name] } := by
  obtain ⟨s, hs, ht⟩ := h.sel
  refine ⟨_, by unfold sendPol; rw [hs], ?_⟩
  rw [List.cons_append, receiveAll]
  have hf : Strgp.find d.st (35 :: p.name) = none := List.find?_eq_none.2 (by simpa using hn)
  let q0 : Pol := { polPeer w p with
    prdcrs := []
    metrics := [] }
  have e0 : receive w d ⟨.strgp, some (peerName p.name), [(.plugin, p.plugin), (.container, p.container), (.schema, s)]⟩ = .ok { d with
      st := { d.st with pols := d.st.pols ++ [q0] }
      peerPols := d.peerPols ++ [35 :: p.name] } := by
    rw [receive_named .strgp _ h.name]
    dsimp only
    unfold polMsg owner
    simp only [Msg.get, List.find?, decide_true, decide_false, reduceCtorEq, expand_text w h.plugin, expand_text w h.container, expand_text w ht,
      Option.map_none, Option.getD_none, Strgp.step, Strgp.peer, Strgp.peerNew, hf, Strgp.part]
    simp only [ne_eq, not_true_eq_false, if_false]
    have hl := find_last (s := d.st) (n := 35 :: p.name) (q := q0) hn rfl
    have hq0 : q0 = ⟨35 :: p.name, w.peer.uid, w.peer.gid, 448, p.plugin, none, p.container, .schema s, none, ⟨0, 0⟩, [], [], false, false, 0⟩ := by
      show ({ polPeer w p with prdcrs := [], metrics := [] } : Pol) = _
      unfold polPeer
      rw [hs]
    rw [hq0] at hl ⊢
    rw [hl]
    simp
  rw [e0]
  dsimp only
  have hfr : Fresh w p.name q0 := ⟨rfl, rfl, rfl, rfl, rfl⟩
  rw [receiveAll_append, pol_prdcrs w p.name h.name p.prdcrs { d with peerPols := d.peerPols ++ [35 :: p.name] } q0 h.regex hn hfr]
  dsimp only
  refine (pol_metrics w p.name h.name p.metrics { d with peerPols := d.peerPols ++ [35 :: p.name] } { q0 with prdcrs := p.prdcrs.reverse ++ q0.prdcrs }
    h.metric h.distinct hn ⟨rfl, rfl, rfl, rfl, rfl⟩).trans ?_
  simp [q0, polPeer]

theorem pols_made {w : World} : ∀ (ps : List Pol) (d : Daemon),
    (∀ p ∈ ps.filter (fun p => ¬ FromPeer p.name), FinePol w p) → ((ps.filter fun p => ¬ FromPeer p.name).map (·.name)).Nodup →
    (∀ p ∈ ps.filter (fun p => ¬ FromPeer p.name), ∀ q ∈ d.st.pols, q.name ≠ 35 :: p.name) →
    ∃ ms, sendPols ps = .ok ms ∧ receiveAll w d ms = .ok { d with
      st := { d.st with pols := d.st.pols ++ (ps.filter fun p => ¬ FromPeer p.name).map (polPeer w) }
      peerPols := d.peerPols ++ (ps.filter fun p => ¬ FromPeer p.name).map fun p => 35 :: p.name }
  | [], d, _, _, _ => ⟨[], rfl, by simp [receiveAll]⟩
  | p :: ps, d, h, hd, hn => by
    by_cases c : FromPeer p.name
    · have e : (p :: ps).filter (fun p => ¬ FromPeer p.name) = ps.filter fun p => ¬ FromPeer p.name := by simp [c]
      rw [e] at h hd hn ⊢
      obtain ⟨ms, h1, h2⟩ := pols_made ps d h hd hn
      exact ⟨ms, by rw [sendPols, if_pos ((isPeer_iff _).2 c), h1], h2⟩
    · have e : (p :: ps).filter (fun p => ¬ FromPeer p.name) = p :: ps.filter fun p => ¬ FromPeer p.name := by simp [c]
      rw [e] at h hd hn ⊢
      rw [List.map_cons, List.nodup_cons] at hd
      obtain ⟨m1, h1, h2⟩ := pol_made d (h p (by simp)) (hn p (by simp))
      have key : ∀ r ∈ ps.filter (fun p => ¬ FromPeer p.name), ∀ q ∈ d.st.pols ++ [polPeer w p], q.name ≠ 35 :: r.name := by
        intro r hr q hq
        rw [List.mem_append, List.mem_singleton] at hq
        rcases hq with hq | rfl
        · exact hn r (List.mem_cons_of_mem _ hr) q hq
        · intro e
          simp only [polPeer, List.cons.injEq, true_and] at e
          exact hd.1 (by rw [e]; exact List.mem_map_of_mem hr)
      have := pols_made ps { d with
        st := { d.st with pols := d.st.pols ++ [polPeer w p] }
        peerPols := d.peerPols ++ [35 :: p.name] } (fun q hq => h q (List.mem_cons_of_mem _ hq)) hd.2 key
      obtain ⟨m2, h3, h4⟩ := this
      refine ⟨m1 ++ m2, ?_, ?_⟩
      · rw [sendPols, if_neg (by rw [isPeer_iff]; exact c), h1, h3]
      · rw [receiveAll_append, h2]
        dsimp only
        rw [h4]
        simp

end Verif.PeerCfg
