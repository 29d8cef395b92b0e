import Verif.PeerCfg.SendUp

/-!
# Proofs: what comes from the peer leaves the daemon's own objects alone
-/

namespace Verif.PeerCfg

open Verif.SetOwner (Str)
open Verif.Strgp (Pol Sel Who)

/-- the names that are kept for the peer have the prefix -/
structure Inv (d : Daemon) : Prop where
  prds : ∀ x ∈ d.peerPrds, FromPeer x.1
  ups : ∀ x ∈ d.peerUps, FromPeer x.1
  pols : ∀ x ∈ d.peerPols, FromPeer x

theorem SameOwn.refl (d : Daemon) : SameOwn d d := ⟨rfl, rfl, rfl⟩
theorem SameOwn.trans {a b c : Daemon} (h : SameOwn a b) (g : SameOwn b c) : SameOwn a c :=
  ⟨h.prds.trans g.prds, h.ups.trans g.ups, h.pols.trans g.pols⟩

theorem map_filter_same {α : Type} (f : α → α) (c : α → Prop) [DecidablePred c] : ∀ l : List α, (∀ x ∈ l, c x → f x = x) →
    (∀ x ∈ l, ¬ c x → ¬ c (f x)) → (l.map f).filter (fun x => c x) = l.filter fun x => c x
  | [], _, _ => rfl
  | x :: l, h1, h2 => by
    have ih := map_filter_same f c l (fun y hy => h1 y (by simp [hy])) (fun y hy => h2 y (by simp [hy]))
    by_cases hx : c x
    · have := h1 x (by simp) hx
      simp only [List.map_cons, this, hx, List.filter_cons, decide_true, if_true, ih]
    · have := h2 x (by simp) hx
      simp only [List.map_cons, List.filter_cons, hx, this, decide_false, Bool.false_eq_true, if_false, ih]

theorem own_setPrdcr {d : Daemon} {n : Str} {f : Prdcr → Prdcr} (hn : FromPeer n) (hf : ∀ p, (f p).name = p.name) :
    SameOwn (d.setPrdcr n f) d := by
  refine ⟨?_, rfl, rfl⟩
  unfold ownPrds Daemon.setPrdcr
  refine map_filter_same _ (fun p : Prdcr => ¬ FromPeer p.name) d.prds (fun p _ hp => ?_) (fun p _ hp => ?_)
  · rw [if_neg]; rintro rfl; exact hp hn
  · split
    · rw [hf]; exact hp
    · exact hp

theorem own_setUpdtr {d : Daemon} {n : Str} {f : Updtr → Updtr} (hn : FromPeer n) (hf : ∀ u, (f u).name = u.name) :
    SameOwn (d.setUpdtr n f) d := by
  refine ⟨rfl, ?_, rfl⟩
  unfold ownUps Daemon.setUpdtr
  refine map_filter_same _ (fun p : Updtr => ¬ FromPeer p.name) d.ups (fun p _ hp => ?_) (fun p _ hp => ?_)
  · rw [if_neg]; rintro rfl; exact hp hn
  · split
    · rw [hf]; exact hp
    · exact hp

theorem own_change {n : Str} {pr : Bool} {nd : Prop} {s s' : Strgp.State} (h : Strgp.Change (some n) pr nd s s') (hn : FromPeer n) :
    s'.pols.filter (fun p => ¬ FromPeer p.name) = s.pols.filter fun p => ¬ FromPeer p.name := by
  induction h with
  | refl => rfl
  | set s p p' _ h2 h3 _ _ _ =>
    injection h2 with h2
    refine map_filter_same _ (fun p : Pol => ¬ FromPeer p.name) s.pols (fun q _ hq => ?_) (fun q _ hq => ?_)
    · rw [if_neg]; intro e; rw [e, h3, ← h2] at hq; exact hq hn
    · split
      · rw [h3, ← h2]; exact fun h => h hn
      · exact hq
  | remove s p i _ h2 _ _ =>
    injection h2 with h2
    dsimp only
    rw [List.filter_filter]
    refine List.filter_congr fun q _ => ?_
    by_cases c : FromPeer q.name
    · simp [c]
    · have : q.name ≠ p.name := fun e => c (by rw [e, ← h2]; exact hn)
      simp [c, this]
  | new s p g _ h2 _ _ _ =>
    injection h2 with h2
    have : FromPeer p.name := h2 ▸ hn
    simp [List.filter_append, this, Strgp.State.hold]
  | newPeer s p _ _ h2 _ =>
    injection h2 with h2
    have : FromPeer p.name := h2 ▸ hn
    simp [List.filter_append, this]
  | load => rfl
  | term => rfl
  | trans _ _ ih1 ih2 => exact ih2.trans ih1

theorem prdcrOld_name (w : World) (m : Msg) (p : Prdcr) : (prdcrOld w m p).name = p.name := by
  unfold prdcrOld
  cases m.get w .interval <;> cases m.get w .stream <;> dsimp only <;> (try split) <;> rfl

theorem updtrOld_name (w : World) (m : Msg) (u : Updtr) : (updtrOld w m u).name = u.name := by
  unfold updtrOld
  cases m.get w .interval <;> cases m.get w .offset <;> rfl

theorem addPrdcr_name (p : Str) (u : Updtr) : (addPrdcr p u).name = u.name := by
  unfold addPrdcr; split <;> rfl

theorem addMatch_name (w : World) (o : Who) (s x : Str) (u : Updtr) : (addMatch w o s x u).name = u.name := by
  unfold addMatch
  split
  · rfl
  · split
    · rfl
    · split <;> rfl

/-- a step that leaves the own objects alone and keeps the invariant -/
structure Good (d d' : Daemon) : Prop where
  own : SameOwn d' d
  inv : Inv d → Inv d'

theorem Good.refl (d : Daemon) : Good d d := ⟨.refl d, id⟩
theorem Good.trans {a b c : Daemon} (h : Good a b) (g : Good b c) : Good a c := ⟨g.own.trans h.own, fun x => g.inv (h.inv x)⟩

theorem good_setPrdcr {d : Daemon} {n : Str} {f : Prdcr → Prdcr} (hn : FromPeer n) (hf : ∀ p, (f p).name = p.name) : Good d (d.setPrdcr n f) :=
  ⟨own_setPrdcr hn hf, fun h => ⟨h.prds, h.ups, h.pols⟩⟩

theorem good_setUpdtr {d : Daemon} {n : Str} {f : Updtr → Updtr} (hn : FromPeer n) (hf : ∀ p, (f p).name = p.name) : Good d (d.setUpdtr n f) :=
  ⟨own_setUpdtr hn hf, fun h => ⟨h.prds, h.ups, h.pols⟩⟩

theorem prdcrMsg_good {w : World} {d d' : Daemon} {n : Str} {m : Msg} (hn : FromPeer n) (h : prdcrMsg w d n m = .ok d') : Good d d' := by
  unfold prdcrMsg at h
  split at h
  · injection h with h; subst h; exact good_setPrdcr hn (prdcrOld_name w m)
  · unfold prdcrNew at h
    split at h
    · rename_i port x hh ii t _ _ _ _ _
      generalize (if Dump.eqi t "passive" = true then Kind.passive else Kind.active) = k at h
      dsimp only at h
      split at h
      · injection h with h; subst h; exact .refl d
      · split at h
        · injection h with h; subst h; exact .refl d
        · split at h
          · injection h with h; subst h; exact .refl d
          · injection h with h; subst h
            refine ⟨⟨?_, rfl, rfl⟩, fun i => ⟨?_, i.ups, i.pols⟩⟩
            · simp [ownPrds, List.filter_append, hn]
            · intro x hx
              rw [List.mem_append, List.mem_singleton] at hx
              rcases hx with hx | rfl
              · exact i.prds x hx
              · exact hn
    · exact nomatch h

theorem updtrParts_good {w : World} {d : Daemon} {n : Str} {m : Msg} (hn : FromPeer n) : Good d (updtrParts w d n m) := by
  have hmat : ∀ d : Daemon, Good d (updtrParts.mat w n m d) := by
    intro d
    unfold updtrParts.mat
    split
    · exact good_setUpdtr hn (addMatch_name w _ _ _)
    · exact .refl d
  unfold updtrParts
  split
  · exact hmat d
  · split
    · exact (good_setUpdtr hn (addPrdcr_name _)).trans (hmat _)
    · exact .refl d

theorem updtrMsg_good {w : World} {d d' : Daemon} {n : Str} {m : Msg} (hn : FromPeer n) (h : updtrMsg w d n m = .ok d') : Good d d' := by
  unfold updtrMsg at h
  split at h
  · injection h with h; subst h; exact (good_setUpdtr hn (updtrOld_name w m)).trans (updtrParts_good hn)
  · split at h
    · exact nomatch h
    · rename_i d1 h1
      injection h with h; subst h
      refine Good.trans ?_ (updtrParts_good hn)
      unfold updtrNew at h1
      split at h1
      · exact nomatch h1
      · injection h1 with h1; subst h1
        refine ⟨⟨rfl, ?_, rfl⟩, fun i => ⟨i.prds, ?_, i.pols⟩⟩
        · simp [ownUps, List.filter_append, taskInit, hn]
        · intro x hx
          rw [List.mem_append, List.mem_singleton] at hx
          rcases hx with hx | rfl
          · exact i.ups x hx
          · exact hn

theorem polMsg_good {w : World} {d d' : Daemon} {n : Str} {m : Msg} (hn : FromPeer n) (h : polMsg w d n m = .ok d') : Good d d' := by
  unfold polMsg at h
  dsimp only at h
  split at h
  · exact nomatch h
  · rename_i s rc hs
    injection h with h; subst h
    refine ⟨⟨rfl, rfl, ?_⟩, fun i => ⟨i.prds, i.ups, ?_⟩⟩
    · exact own_change (nd := False) (Strgp.peer_change hs) hn
    · intro x hx
      dsimp only at hx
      split at hx
      · rw [List.mem_append, List.mem_singleton] at hx
        rcases hx with hx | rfl
        · exact i.pols x hx
        · exact hn
      · exact i.pols x hx

theorem receive_good {w : World} {d d' : Daemon} {m : Msg} (h : receive w d m = .ok d') : Good d d' := by
  unfold receive at h
  split at h
  · exact nomatch h
  · rename_i n _
    split at h
    · rename_i hp
      have hn := (isPeer_iff n).1 hp
      split at h
      · exact prdcrMsg_good hn h
      · exact updtrMsg_good hn h
      · exact polMsg_good hn h
    · exact nomatch h

theorem each_good {f : Daemon → Str × Bool → Daemon × (Str × Bool)} (hf : ∀ d x, FromPeer x.1 → Good d (f d x).1 ∧ (f d x).2.1 = x.1) :
    ∀ (xs : List (Str × Bool)) (d : Daemon), (∀ x ∈ xs, FromPeer x.1) →
    Good d (each f d xs).1 ∧ (each f d xs).2.map (·.1) = xs.map (·.1)
  | [], d, _ => ⟨.refl d, rfl⟩
  | x :: xs, d, h => by
    have h1 := hf d x (h x (by simp))
    have h2 := each_good hf xs (f d x).1 fun y hy => h y (by simp [hy])
    exact ⟨h1.1.trans h2.1, by simp [each, h1.2, h2.2]⟩

theorem startPrdcr_good (w : World) (d : Daemon) (x : Str × Bool) (hx : FromPeer x.1) :
    Good d (startPrdcr w d x).1 ∧ (startPrdcr w d x).2.1 = x.1 := by
  unfold startPrdcr
  split
  · exact ⟨.refl d, rfl⟩
  · split
    · exact ⟨.refl d, rfl⟩
    · split
      · exact ⟨good_setPrdcr hx fun _ => rfl, rfl⟩
      · exact ⟨.refl d, rfl⟩

theorem startUpdtr_good (w : World) (d : Daemon) (x : Str × Bool) (hx : FromPeer x.1) :
    Good d (startUpdtr w d x).1 ∧ (startUpdtr w d x).2.1 = x.1 := by
  unfold startUpdtr
  split
  · exact ⟨.refl d, rfl⟩
  · split
    · exact ⟨.refl d, rfl⟩
    · split
      · exact ⟨good_setUpdtr hx fun _ => rfl, rfl⟩
      · exact ⟨.refl d, rfl⟩

theorem stopPrdcr_good (w : World) (d : Daemon) (x : Str × Bool) (hx : FromPeer x.1) :
    Good d (stopPrdcr w d x).1 ∧ (stopPrdcr w d x).2.1 = x.1 := by
  unfold stopPrdcr
  split
  · exact ⟨.refl d, rfl⟩
  · split
    · exact ⟨.refl d, rfl⟩
    · split
      · exact ⟨.refl d, rfl⟩
      · split
        · exact ⟨.refl d, rfl⟩
        · exact ⟨good_setPrdcr hx fun _ => rfl, rfl⟩

theorem stopUpdtr_good (w : World) (d : Daemon) (x : Str × Bool) (hx : FromPeer x.1) :
    Good d (stopUpdtr w d x).1 ∧ (stopUpdtr w d x).2.1 = x.1 := by
  unfold stopUpdtr
  split
  · exact ⟨.refl d, rfl⟩
  · split
    · exact ⟨.refl d, rfl⟩
    · split
      · exact ⟨.refl d, rfl⟩
      · split
        · exact ⟨.refl d, rfl⟩
        · exact ⟨good_setUpdtr hx fun _ => rfl, rfl⟩

theorem names_from {xs ys : List (Str × Bool)} (h : xs.map (·.1) = ys.map (·.1)) (hy : ∀ y ∈ ys, FromPeer y.1) : ∀ x ∈ xs, FromPeer x.1 := by
  intro x hx
  have : x.1 ∈ ys.map (·.1) := by rw [← h]; exact List.mem_map_of_mem hx
  obtain ⟨y, h1, h2⟩ := List.mem_map.1 this
  rw [← h2]; exact hy y h1

theorem start_good {w : World} {d : Daemon} (i : Inv d) : SameOwn (start w d) d ∧ Inv (start w d) := by
  have a := each_good (startPrdcr_good w) d.peerPrds d i.prds
  have i1 := a.1.inv i
  obtain ⟨d1, hd⟩ : ∃ d1 : Daemon, d1 = { (each (startPrdcr w) d d.peerPrds).1 with peerPrds := (each (startPrdcr w) d d.peerPrds).2 } := ⟨_, rfl⟩
  have i2 : Inv d1   := by
    subst hd; exact ⟨names_from a.2 i.prds, i1.ups, i1.pols⟩
  have b := each_good (startUpdtr_good w) d1.peerUps d1 i2.ups
  have i3 := b.1.inv i2
  have s2 : SameOwn d1 d := by
    subst hd; exact ⟨a.1.own.prds, a.1.own.ups, a.1.own.pols⟩
  have s3 := b.1.own.trans s2
  subst hd
  exact ⟨⟨s3.prds, s3.ups, s3.pols⟩, ⟨i3.prds, names_from b.2 i2.ups, i3.pols⟩⟩

theorem stop_good {w : World} {d : Daemon} (i : Inv d) : SameOwn (stop w d).1 d ∧ Inv (stop w d).1 := by
  have a := each_good (stopUpdtr_good w) d.peerUps d i.ups
  have i1 := a.1.inv i
  obtain ⟨d1, hd⟩ : ∃ d1 : Daemon, d1 = { (each (stopUpdtr w) d d.peerUps).1 with peerUps := (each (stopUpdtr w) d d.peerUps).2 } := ⟨_, rfl⟩
  have i2 : Inv d1 := by
    subst hd; exact ⟨i1.prds, names_from a.2 i.ups, i1.pols⟩
  have b := each_good (stopPrdcr_good w) d1.peerPrds d1 i2.prds
  have i3 := b.1.inv i2
  have s2 : SameOwn d1 d := by
    subst hd; exact ⟨a.1.own.prds, a.1.own.ups, a.1.own.pols⟩
  have s3 := b.1.own.trans s2
  subst hd
  exact ⟨⟨s3.prds, s3.ups, s3.pols⟩, ⟨names_from b.2 i2.prds, i3.ups, i3.pols⟩⟩

theorem filter_own {α : Type} (f : α → Str) (n : Str) (hn : FromPeer n) (l : List α) :
    (l.filter fun p => f p ≠ n).filter (fun p => ¬ FromPeer (f p)) = l.filter fun p => ¬ FromPeer (f p) := by
  rw [List.filter_filter]
  refine List.filter_congr fun q _ => ?_
  by_cases c : FromPeer (f q)
  · simp [c]
  · have : f q ≠ n := fun e => c (by rw [e]; exact hn)
    simp [c, this]

theorem delUps_good {w : World} : ∀ (xs : List (Str × Bool)) (d : Daemon), (∀ x ∈ xs, FromPeer x.1) → Good d (delUps w xs d).1
  | [], d, _ => ⟨⟨rfl, rfl, rfl⟩, fun i => ⟨i.prds, (fun _ h => nomatch h), i.pols⟩⟩
  | x :: xs, d, h => by
    have stay : Good d { d with peerUps := x :: xs } := ⟨⟨rfl, rfl, rfl⟩, fun i => ⟨i.prds, h, i.pols⟩⟩
    rw [delUps]
    split
    · exact stay
    · split
      · refine Good.trans ?_ (delUps_good xs _ fun y hy => h y (by simp [hy]))
        exact ⟨⟨rfl, filter_own (fun u : Updtr => u.name) x.1 (h x (by simp)) d.ups, rfl⟩, fun i => ⟨i.prds, i.ups, i.pols⟩⟩
      · exact stay

theorem delPrds_good {w : World} : ∀ (xs : List (Str × Bool)) (d : Daemon), (∀ x ∈ xs, FromPeer x.1) → Good d (delPrds w xs d)
  | [], d, _ => ⟨⟨rfl, rfl, rfl⟩, fun i => ⟨(fun _ h => nomatch h), i.ups, i.pols⟩⟩
  | x :: xs, d, h => by
    have stay : Good d { d with peerPrds := x :: xs } := ⟨⟨rfl, rfl, rfl⟩, fun i => ⟨h, i.ups, i.pols⟩⟩
    rw [delPrds]
    split
    · exact stay
    · split
      · refine Good.trans ?_ (delPrds_good xs _ fun y hy => h y (by simp [hy]))
        exact ⟨⟨filter_own (fun p : Prdcr => p.name) x.1 (h x (by simp)) d.prds, rfl, rfl⟩, fun i => ⟨i.prds, i.ups, i.pols⟩⟩
      · exact stay

theorem delPols_good {w : World} : ∀ (xs : List Str) (d : Daemon) (r : Daemon × Bool), (∀ x ∈ xs, FromPeer x) → delPols w xs d = .ok r → Good d r.1
  | [], d, r, _, e => by
    injection e with e; subst e
    exact ⟨⟨rfl, rfl, rfl⟩, fun i => ⟨i.prds, i.ups, fun _ h => nomatch h⟩⟩
  | x :: xs, d, r, h, e => by
    rw [delPols] at e
    split at e
    · exact nomatch e
    · rename_i s rc hs
      have c := Strgp.del_change (nd := False) (pr := false) (n := x) hs
      have g : Good d { d with st := s } := ⟨⟨rfl, rfl, own_change c (h x (by simp))⟩, fun i => ⟨i.prds, i.ups, i.pols⟩⟩
      split at e
      · exact g.trans (delPols_good xs _ r (fun y hy => h y (by simp [hy])) e)
      · injection e with e; subst e
        exact ⟨⟨rfl, rfl, rfl⟩, fun i => ⟨i.prds, i.ups, h⟩⟩

theorem reset_good {w : World} {d d' : Daemon} (i : Inv d) (h : reset w d = .ok d') : SameOwn d' d ∧ Inv d' := by
  have s := stop_good (w := w) i
  unfold reset at h
  dsimp only at h
  split at h
  · injection h with h; subst h; exact s
  · split at h
    · exact nomatch h
    · rename_i d1 h1
      injection h with h; subst h
      have g := delPols_good _ _ _ s.2.pols h1
      exact ⟨g.own.trans s.1, g.inv s.2⟩
    · rename_i d1 h1
      have g := delPols_good _ _ _ s.2.pols h1
      have i1 := g.inv s.2
      have o1 := g.own.trans s.1
      have g2 := delUps_good (w := w) d1.peerUps d1 i1.ups
      split at h
      · rename_i d2 h2
        injection h with h; subst h
        rw [h2] at g2
        exact ⟨g2.own.trans o1, g2.inv i1⟩
      · rename_i d2 h2
        injection h with h; subst h
        rw [h2] at g2
        have g3 := delPrds_good (w := w) d2.peerPrds d2 (g2.inv i1).prds
        exact ⟨g3.own.trans (g2.own.trans o1), g3.inv (g2.inv i1)⟩

theorem step_good {w : World} {d d' : Daemon} {e : Ev} (i : Inv d) (h : step w d e = .ok d') : SameOwn d' d ∧ Inv d' := by
  cases e with
  | msg m => have g := receive_good h; exact ⟨g.own, g.inv i⟩
  | start => injection h with h; subst h; exact start_good i
  | stop => injection h with h; subst h; exact stop_good i
  | reset => exact reset_good i h
  | connects n =>
    injection h with h; subst h
    split
    · rename_i hp
      have g := good_setPrdcr (d := d) (n := n) (f := fun p => if p.conn = .disconnected then { p with conn := .connected } else p)
        ((isPeer_iff n).1 hp) (by intro p; split <;> rfl)
      exact ⟨g.own, g.inv i⟩
    · exact ⟨.refl d, i⟩
  | closed n =>
    injection h with h; subst h
    split
    · rename_i hp
      have g := good_setPrdcr (d := d) (n := n) (f := fun p =>
        if p.conn = .stopping then { p with conn := .stopped } else if p.conn = .connected then { p with conn := .disconnected } else p)
        ((isPeer_iff n).1 hp) (by intro p; split; · rfl
                                  · split <;> rfl)
      exact ⟨g.own, g.inv i⟩
    · exact ⟨.refl d, i⟩

theorem run_good {w : World} : ∀ (es : List Ev) (d d' : Daemon), Inv d → run w d es = .ok d' → SameOwn d' d ∧ Inv d'
  | [], d, d', i, h => by injection h with h; subst h; exact ⟨.refl d, i⟩
  | e :: es, d, d', i, h => by
    rw [run] at h
    split at h
    · exact nomatch h
    · rename_i d1 h1
      have g := step_good i h1
      have g2 := run_good es d1 d' g.2 h
      exact ⟨g2.1.trans g.1, g2.2⟩

end Verif.PeerCfg
