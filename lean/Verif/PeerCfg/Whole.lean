import Verif.PeerCfg.Takeover

/-!
# Proofs: the whole configuration
-/

namespace Verif.PeerCfg

open Verif.SetOwner (Str)
open Verif.Strgp (Pol Sel Who)

theorem not_peer_ne {n m : Str} (h : ¬ FromPeer n) : n ≠ 35 :: m := by
  intro e
  exact h (by rw [e]; rfl)

theorem all_sent {w : World} {src dst : Daemon} (f : Fine w src) (c : Clean dst) : transfer w src dst = .ok (withPeer w src dst) := by
  have hp : src.prds.filter (fun p => !isPeer p.name) = ownPrds src := by
    unfold ownPrds; exact List.filter_congr fun q _ => not_isPeer q.name
  have hu : src.ups.filter (fun p => !isPeer p.name) = ownUps src := by
    unfold ownUps; exact List.filter_congr fun q _ => not_isPeer q.name
  obtain ⟨d1, hd1⟩ : ∃ d1 : Daemon, d1 = { dst with
      prds := dst.prds ++ (ownPrds src).map prdcrPeer
      peerPrds := dst.peerPrds ++ (ownPrds src).map fun p => (35 :: p.name, false) } := ⟨_, rfl⟩
  obtain ⟨d2, hd2⟩ : ∃ d2 : Daemon, d2 = { d1 with
      ups := d1.ups ++ (ownUps src).map (updtrPeer w)
      peerUps := d1.peerUps ++ (ownUps src).map fun p => (35 :: p.name, false) } := ⟨_, rfl⟩
  have e1 : receiveAll w dst ((ownPrds src).flatMap sendPrdcr) = .ok d1 := by
    rw [hd1]
    exact prdcrs_made f.auth _ dst f.prdcr f.prdcrs fun p _ q hq => not_peer_ne (c.prds q hq)
  have e2 : receiveAll w d1 ((ownUps src).flatMap sendUpdtr) = .ok d2 := by
    rw [hd2]
    refine updtrs_made f.skew ((ownPrds src).map (·.name)) _ d1 f.updtr ?_ f.updtrs ?_
    · intro n hn
      obtain ⟨p, hp, rfl⟩ := List.mem_map.1 hn
      refine ⟨(f.prdcr p hp).name, ?_⟩
      rw [List.any_eq_true]
      refine ⟨prdcrPeer p, ?_, by simp [prdcrPeer]⟩
      rw [hd1]
      exact List.mem_append_right _ (List.mem_map_of_mem hp)
    · intro p _ q hq
      rw [hd1] at hq
      exact not_peer_ne (c.ups q hq)
  obtain ⟨ms, h1, h2⟩ := pols_made (w := w) src.st.pols d2 f.pol f.pols (by
    intro p _ q hq
    rw [hd2, hd1] at hq
    exact not_peer_ne (c.pols q hq))
  unfold transfer send
  rw [hp, hu, h1]
  dsimp only
  rw [receiveAll_append, receiveAll_append, e1]
  dsimp only
  rw [e2]
  dsimp only
  rw [h2, hd2, hd1]
  simp only [withPeer, c.peerPrds, c.peerUps, c.peerPols, List.nil_append, ownPols]

theorem peer_nodup {α : Type} {l : List α} {f : α → Str} (h : (l.map f).Nodup) {b : Bool} :
    ((l.map fun p => (35 :: f p, b)).map (·.1)).Nodup := by
  rw [List.map_map]
  have : (fun p : Str × Bool => p.1) ∘ (fun p => (35 :: f p, b)) = (fun n : Str => 35 :: n) ∘ f := rfl
  rw [this, ← List.map_map]
  exact List.Pairwise.map _ (by intro a b h e; exact h (by injection e)) h

theorem names_of {α : Type} (l : List α) (f : α → Str) (b : Bool) : (l.map fun p => (35 :: f p, b)).map (·.1) = l.map fun p => 35 :: f p := by
  rw [List.map_map]; rfl

/-- a map on the names of the peer -/
theorem map_peer {α β : Type} {xs : List α} {l : List β} {f : α → Str} {n : β → Str} {k : β → α} {g : α → α} (hx : ∀ x ∈ xs, ¬ FromPeer (f x))
    {q : β → Str} (hk : ∀ x ∈ l, f (k x) = 35 :: n x) (hq : ∀ x ∈ l, q x = 35 :: n x) :
    ((xs ++ l.map k).map fun p => if f p ∈ l.map q then g p else p) = xs ++ l.map fun x => g (k x) := by
  rw [List.map_append, List.map_map]
  congr 1
  · refine (List.map_congr_left fun p hp => ?_).trans (List.map_id _)
    rw [if_neg]
    · rfl
    · intro hm
      obtain ⟨y, hy, e⟩ := List.mem_map.1 hm
      exact hx p hp (by rw [← e, hq y hy]; rfl)
  · refine List.map_congr_left fun x hxl => ?_
    simp only [Function.comp]
    rw [if_pos]
    rw [hk x hxl, ← hq x hxl]
    exact List.mem_map_of_mem hxl

theorem filter_peer {α β : Type} {xs : List α} {l : List β} {f : α → Str} {n : β → Str} {k : β → α} (hx : ∀ x ∈ xs, ¬ FromPeer (f x))
    {q : β → Str} (hk : ∀ x ∈ l, f (k x) = 35 :: n x) (hq : ∀ x ∈ l, q x = 35 :: n x) :
    ((xs ++ l.map k).filter fun p => f p ∉ l.map q) = xs := by
  rw [List.filter_append]
  have h1 : (xs.filter fun p => f p ∉ l.map q) = xs := by
    refine List.filter_eq_self.2 fun p hp => ?_
    rw [decide_eq_true_eq]
    intro hm
    obtain ⟨y, hy, e⟩ := List.mem_map.1 hm
    exact hx p hp (by rw [← e, hq y hy]; rfl)
  have h2 : ((l.map k).filter fun p => f p ∉ l.map q) = [] := by
    refine List.filter_eq_nil_iff.2 fun p hp => ?_
    obtain ⟨y, hy, rfl⟩ := List.mem_map.1 hp
    rw [decide_eq_true_eq]
    intro hm
    exact hm (by rw [hk y hy, ← hq y hy]; exact List.mem_map_of_mem hy)
  rw [h1, h2, List.append_nil]

theorem in_peer {α β : Type} {xs : List α} {l : List β} {f : α → Str} {k : β → α} {q : β → Str} (hx : ∀ x ∈ xs, ¬ FromPeer (f x))
    (hq : ∀ x ∈ l, FromPeer (q x)) {p : α} (hp : p ∈ xs ++ l.map k) (hm : f p ∈ l.map q) : ∃ x ∈ l, p = k x := by
  rcases List.mem_append.1 hp with h | h
  · obtain ⟨y, hy, e⟩ := List.mem_map.1 hm
    exact absurd (e ▸ hq y hy) (hx p h)
  · obtain ⟨y, hy, e⟩ := List.mem_map.1 h
    exact ⟨y, hy, e.symm⟩

theorem updtr_goes {w : World} {u : Updtr} {ps : List Str} (f : FineUpdtr w ps u) (hs : w.skew.natAbs < 2 ^ 31) :
    goUpdtr w (updtrPeer w u) = { updtrPeer w u with
      running := true
      perm := u.perm ||| 512 } := by
  unfold goUpdtr taskInit
  by_cases c : u.sync = true
  · have h1 := f.offset c
    have h2 := f.interval
    have h3 : u.off - w.skew ≠ noOffset := by unfold noOffset; omega
    have h4 : u.off - w.skew + w.skew = u.off := by omega
    have h5 : (updtrPeer w u).off = u.off - w.skew := by simp [updtrPeer, c]
    have h6 : (u.off - w.skew != noOffset) = true := by simpa using h3
    simp [h5, h3, h4, h6]
    simp [updtrPeer, c]
  · have h5 : (updtrPeer w u).off = noOffset := by simp [updtrPeer, c, noOffset]
    simp only [h5, bne_self_eq_false, if_true]
    simp [updtrPeer, c, noOffset]

theorem taken_over {w : World} {src dst : Daemon} (f : Fine w src) (c : Clean dst) (m : Master w src) :
    start w (withPeer w src dst) = takenOver w src dst := by
  have e1 := start_prds (w := w) (withPeer w src dst).peerPrds (withPeer w src dst)
    (by intro x hx; obtain ⟨p, _, rfl⟩ := List.mem_map.1 hx; rfl)
    (peer_nodup f.prdcrs)
    (by
      intro x hx; obtain ⟨p, hp, rfl⟩ := List.mem_map.1 hx
      exact ⟨prdcrPeer p, List.mem_append_right _ (List.mem_map_of_mem hp), rfl⟩)
    (by
      intro p hp hn
      rw [show (withPeer w src dst).peerPrds = (ownPrds src).map fun p => (35 :: p.name, false) from rfl, names_of] at hn
      obtain ⟨q, hq, rfl⟩ := in_peer (f := fun p : Prdcr => p.name) (q := fun p : Prdcr => 35 :: p.name) c.prds (fun _ _ => rfl) hp hn
      exact ⟨m.prdcr q hq, rfl⟩)
  unfold start
  dsimp only
  rw [e1]
  dsimp only
  obtain ⟨d1, hd⟩ : ∃ d1 : Daemon, d1 = { withPeer w src dst with
      prds := (withPeer w src dst).prds.map fun p => if p.name ∈ (withPeer w src dst).peerPrds.map (·.1) then goPrdcr p else p
      peerPrds := (withPeer w src dst).peerPrds.map fun x => (x.1, true) } := ⟨_, rfl⟩
  have hu : d1.ups = (withPeer w src dst).ups := by rw [hd]
  have hpu : d1.peerUps = (withPeer w src dst).peerUps := by rw [hd]
  have e2 := start_ups (w := w) d1.peerUps d1
    (by rw [hpu]; intro x hx; obtain ⟨p, _, rfl⟩ := List.mem_map.1 hx; rfl)
    (by rw [hpu]; exact peer_nodup f.updtrs)
    (by
      rw [hpu, hu]
      intro x hx; obtain ⟨p, hp, rfl⟩ := List.mem_map.1 hx
      exact ⟨updtrPeer w p, List.mem_append_right _ (List.mem_map_of_mem hp), rfl⟩)
    (by
      rw [hpu, hu]
      intro p hp hn
      rw [show (withPeer w src dst).peerUps = (ownUps src).map fun p => (35 :: p.name, false) from rfl, names_of] at hn
      obtain ⟨q, hq, rfl⟩ := in_peer (f := fun p : Updtr => p.name) (q := fun p : Updtr => 35 :: p.name) c.ups (fun _ _ => rfl) hp hn
      exact ⟨m.updtr q hq, rfl⟩)
  rw [← hd, show (withPeer w src dst).peerUps = d1.peerUps from hpu.symm, e2]
  dsimp only
  rw [hpu, hu, hd]
  unfold takenOver
  simp only [withPeer, names_of, List.map_map]
  congr 1
  · exact map_peer (f := fun p : Prdcr => p.name) (n := fun p : Prdcr => p.name) (g := goPrdcr) c.prds (fun _ _ => rfl) (fun _ _ => rfl)
  · refine (map_peer (f := fun p : Updtr => p.name) (n := fun p : Updtr => p.name) (g := goUpdtr w) c.ups (fun _ _ => rfl)
      (fun _ _ => rfl)).trans ?_
    congr 1
    refine List.map_congr_left fun u hu => ?_
    exact updtr_goes (f.updtr u hu) f.skew

/-- what is deleted when all are stopped -/
theorem deleted {w : World} {src dst d : Daemon} {F : Prdcr → Prdcr} {G : Updtr → Updtr} (np : ((ownPrds src).map (·.name)).Nodup)
    (nu : ((ownUps src).map (·.name)).Nodup) (c : Clean dst)
    (hl : ∀ u ∈ dst.ups, ∀ n ∈ u.prdcrs, ¬ FromPeer n)
    (hF : ∀ p ∈ ownPrds src, (F p).name = 35 :: p.name ∧ (F p).conn = .stopped ∧ allowed w w.who (F p).uid (F p).gid (F p).perm = true)
    (hG : ∀ u ∈ ownUps src, (G u).name = 35 :: u.name ∧ (G u).running = false ∧ allowed w w.who (G u).uid (G u).gid (G u).perm = true)
    (h : d = { dst with
      prds := dst.prds ++ (ownPrds src).map F
      ups := dst.ups ++ (ownUps src).map G
      peerPrds := (ownPrds src).map fun p => (35 :: p.name, false)
      peerUps := (ownUps src).map fun p => (35 :: p.name, false) }) :
    ∃ d1, delUps w d.peerUps d = (d1, true) ∧ delPrds w d1.peerPrds d1 = dst := by
  have e1 := del_ups (w := w) d.peerUps d (by rw [h]; exact peer_nodup nu)
    (by
      rw [h]
      intro x hx; obtain ⟨p, hp, rfl⟩ := List.mem_map.1 hx
      exact ⟨G p, List.mem_append_right _ (List.mem_map_of_mem hp), (hG p hp).1⟩)
    (by
      rw [h]
      intro p hp hn
      dsimp only at hp hn
      rw [names_of] at hn
      obtain ⟨q, hq, rfl⟩ := in_peer (f := fun p : Updtr => p.name) (q := fun p : Updtr => 35 :: p.name) c.ups (fun _ _ => rfl) hp hn
      exact ⟨(hG q hq).2.2, (hG q hq).2.1⟩)
  refine ⟨_, e1, ?_⟩
  have hu : (d.ups.filter fun u => u.name ∉ d.peerUps.map (·.1)) = dst.ups := by
    rw [h]
    dsimp only
    rw [names_of]
    exact filter_peer (f := fun p : Updtr => p.name) (n := fun p : Updtr => p.name) c.ups (fun p hp => (hG p hp).1) (fun _ _ => rfl)
  rw [hu]
  have e2 := del_prds (w := w) d.peerPrds { d with ups := dst.ups, peerUps := [] } (by rw [h]; exact peer_nodup np)
    (by
      rw [h]
      intro x hx; obtain ⟨p, hp, rfl⟩ := List.mem_map.1 hx
      exact ⟨F p, List.mem_append_right _ (List.mem_map_of_mem hp), (hF p hp).1⟩)
    (by
      rw [h]
      intro p hp hn
      dsimp only at hp hn
      rw [names_of] at hn
      obtain ⟨q, hq, rfl⟩ := in_peer (f := fun p : Prdcr => p.name) (q := fun p : Prdcr => 35 :: p.name) c.prds (fun _ _ => rfl) hp hn
      exact ⟨(hF q hq).2.2, (hF q hq).2.1⟩)
    (by
      rw [h]
      intro u hu n hn hx
      dsimp only at hx
      rw [names_of] at hx
      obtain ⟨y, _, e⟩ := List.mem_map.1 hx
      exact hl u hu n hn (by rw [← e]; rfl))
  rw [e2]
  have hp : (d.prds.filter fun u => u.name ∉ d.peerPrds.map (·.1)) = dst.prds := by
    rw [h]
    dsimp only
    rw [names_of]
    exact filter_peer (f := fun p : Prdcr => p.name) (n := fun p : Prdcr => p.name) c.prds (fun p hp => (hF p hp).1) (fun _ _ => rfl)
  dsimp only
  rw [hp, h]
  dsimp only
  obtain ⟨a, b, st, pp, pu, po⟩ := dst
  have h1 : pp = [] := c.peerPrds
  have h2 : pu = [] := c.peerUps
  rw [h1, h2]

theorem no_pols {w : World} {src dst : Daemon} (hn : ownPols src = []) (c : Clean dst) : withPeer w src dst = { dst with
      prds := dst.prds ++ (ownPrds src).map prdcrPeer
      ups := dst.ups ++ (ownUps src).map (updtrPeer w)
      peerPrds := (ownPrds src).map fun p => (35 :: p.name, false)
      peerUps := (ownUps src).map fun p => (35 :: p.name, false) } := by
  unfold withPeer
  simp only [hn, List.map_nil, List.append_nil, c.peerPols]

theorem dropped {w : World} {src dst : Daemon} (f : Fine w src) (c : Clean dst) (m : Master w src) (hn : ownPols src = [])
    (hl : ∀ u ∈ dst.ups, ∀ n ∈ u.prdcrs, ¬ FromPeer n) : reset w (withPeer w src dst) = .ok dst := by
  obtain ⟨d1, h1, h2⟩ := deleted (w := w) f.prdcrs f.updtrs c hl (F := prdcrPeer) (G := updtrPeer w) (fun p hp => ⟨rfl, rfl, m.prdcr p hp⟩)
    (fun p hp => ⟨rfl, rfl, m.updtr p hp⟩) (no_pols (w := w) hn c)
  have hu := (stop_none (w := w) (withPeer w src dst).peerUps (withPeer w src dst)
    (by intro x hx; obtain ⟨p, _, rfl⟩ := List.mem_map.1 hx; rfl)).2
  have hp := (stop_none (w := w) (withPeer w src dst).peerPrds (withPeer w src dst)
    (by intro x hx; obtain ⟨p, _, rfl⟩ := List.mem_map.1 hx; rfl)).1
  have hs : stop w (withPeer w src dst) = (withPeer w src dst, true) := by
    unfold stop
    dsimp only
    rw [hu]
    dsimp only
    rw [show ({ withPeer w src dst with peerUps := (withPeer w src dst).peerUps } : Daemon) = withPeer w src dst from rfl, hp]
    dsimp only
    congr 1
    simp [withPeer]
  unfold reset
  dsimp only
  rw [hs]
  dsimp only
  have hq : (withPeer w src dst).peerPols = [] := by simp [withPeer, hn]
  rw [if_neg (by simp), hq, delPols]
  dsimp only
  rw [show ({ withPeer w src dst with peerPols := [] } : Daemon) = withPeer w src dst by rw [← hq], h1]
  dsimp only
  rw [h2]

theorem dropped_later {w : World} {src dst : Daemon} (f : Fine w src) (c : Clean dst) (m : Master w src) (hn : ownPols src = [])
    (hl : ∀ u ∈ dst.ups, ∀ n ∈ u.prdcrs, ¬ FromPeer n) : reset w (takenOver w src dst) = .ok dst := by
  have e1 := stop_ups (w := w) (takenOver w src dst).peerUps (takenOver w src dst)
    (by intro x hx; obtain ⟨p, _, rfl⟩ := List.mem_map.1 hx; rfl)
    (peer_nodup f.updtrs)
    (by
      intro x hx; obtain ⟨p, hp, rfl⟩ := List.mem_map.1 hx
      exact ⟨_, List.mem_append_right _ (List.mem_map_of_mem hp), rfl⟩)
    (by
      intro p hp hx
      rw [show (takenOver w src dst).peerUps = (ownUps src).map fun p => (35 :: p.name, true) from rfl, names_of] at hx
      obtain ⟨q, hq, rfl⟩ := in_peer (f := fun p : Updtr => p.name) (q := fun p : Updtr => 35 :: p.name) c.ups (fun _ _ => rfl) hp hx
      exact ⟨(allowed_bits (bits_or _)).trans (m.updtr q hq), rfl⟩)
  obtain ⟨d1, hd⟩ : ∃ d1 : Daemon, d1 = { takenOver w src dst with
      ups := (takenOver w src dst).ups.map fun p => if p.name ∈ (takenOver w src dst).peerUps.map (·.1) then haltUpdtr p else p
      peerUps := (takenOver w src dst).peerUps.map fun x => (x.1, false) } := ⟨_, rfl⟩
  have hu : d1.prds = (takenOver w src dst).prds := by rw [hd]
  have hpu : d1.peerPrds = (takenOver w src dst).peerPrds := by rw [hd]
  have e2 := stop_prds (w := w) d1.peerPrds d1
    (by rw [hpu]; intro x hx; obtain ⟨p, _, rfl⟩ := List.mem_map.1 hx; rfl)
    (by rw [hpu]; exact peer_nodup f.prdcrs)
    (by
      rw [hpu, hu]
      intro x hx; obtain ⟨p, hp, rfl⟩ := List.mem_map.1 hx
      exact ⟨_, List.mem_append_right _ (List.mem_map_of_mem hp), rfl⟩)
    (by
      rw [hpu, hu]
      intro p hp hx
      rw [show (takenOver w src dst).peerPrds = (ownPrds src).map fun p => (35 :: p.name, true) from rfl, names_of] at hx
      obtain ⟨q, hq, rfl⟩ := in_peer (f := fun p : Prdcr => p.name) (q := fun p : Prdcr => 35 :: p.name) c.prds (fun _ _ => rfl) hp hx
      exact ⟨(allowed_bits (bits_or _)).trans (m.prdcr q hq), by simp, by simp⟩)
  obtain ⟨d2, hd2⟩ : ∃ d2 : Daemon, d2 = { d1 with
      prds := d1.prds.map fun p => if p.name ∈ d1.peerPrds.map (·.1) then haltPrdcr p else p
      peerPrds := d1.peerPrds.map fun x => (x.1, false) } := ⟨_, rfl⟩
  have hs : stop w (takenOver w src dst) = (d2, true) := by
    unfold stop
    dsimp only
    rw [e1]
    dsimp only
    rw [← hd, show (takenOver w src dst).peerPrds = d1.peerPrds from hpu.symm, e2, hd2]
    dsimp only
    congr 1
    simp
  have hform : d2 = { dst with
      prds := dst.prds ++ (ownPrds src).map fun p => haltPrdcr { prdcrPeer p with
        conn := .disconnected
        perm := p.perm ||| 512 }
      ups := dst.ups ++ (ownUps src).map fun u => haltUpdtr { updtrPeer w u with
        running := true
        perm := u.perm ||| 512 }
      peerPrds := (ownPrds src).map fun p => (35 :: p.name, false)
      peerUps := (ownUps src).map fun p => (35 :: p.name, false) } := by
    rw [hd2, hpu, hu, hd]
    simp only [takenOver, withPeer, names_of, List.map_map, hn, List.map_nil, List.append_nil, c.peerPols]
    congr 1
    · exact map_peer (f := fun p : Prdcr => p.name) (n := fun p : Prdcr => p.name) (g := haltPrdcr) c.prds (fun _ _ => rfl) (fun _ _ => rfl)
    · exact map_peer (f := fun p : Updtr => p.name) (n := fun p : Updtr => p.name) (g := haltUpdtr) c.ups (fun _ _ => rfl) (fun _ _ => rfl)
  obtain ⟨d3, h1, h2⟩ := deleted (w := w) f.prdcrs f.updtrs c hl
    (fun p hp => ⟨rfl, rfl, (allowed_bits ((bits_and _).trans (bits_or _))).trans (m.prdcr p hp)⟩)
    (fun p hp => ⟨rfl, rfl, (allowed_bits ((bits_and _).trans (bits_or _))).trans (m.updtr p hp)⟩) hform
  unfold reset
  dsimp only
  rw [hs]
  dsimp only
  have hq : d2.peerPols = [] := by rw [hform]; exact c.peerPols
  rw [if_neg (by simp), hq, delPols]
  dsimp only
  rw [show ({ d2 with peerPols := [] } : Daemon) = d2 by rw [← hq], h1]
  dsimp only
  rw [h2]

end Verif.PeerCfg
