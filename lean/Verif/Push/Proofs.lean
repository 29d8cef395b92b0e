import Verif.Push.Spec

namespace Verif.Push

/-! ## Receiving the parts of a push -/

theorem bytes_length (m : Mem) (off len : Nat) : (bytes m off len).length = len := by simp [bytes]

theorem store_bytes (m s : Mem) (off len j : Nat) :
    store m off (bytes s off len) j = if off ≤ j ∧ j < off + len then s j else m j := by
  unfold store
  rw [bytes_length]
  split
  · rename_i h
    have h1 : j - off < (bytes s off len).length := by rw [bytes_length]; omega
    rw [List.getD_eq_getElem?_getD, List.getElem?_eq_getElem h1]
    simp only [bytes, List.getElem_map, List.getElem_range, Option.getD_some]
    congr 1; omega
  · rfl

/-- The memory with the positions from `off` taken from another. -/
def overlay (m s : Mem) (off len : Nat) : Mem := fun j => if off ≤ j ∧ j < off + len then s j else m j

theorem overlay_step (m s : Mem) (off a len : Nat) (h : a ≤ len) :
    overlay (store m off (bytes s off a)) s (off + a) (len - a) = overlay m s off len := by
  funext j
  simp only [overlay, store_bytes]
  split
  · rename_i h1; rw [if_pos (by omega)]
  · split
    · rw [if_pos (by omega)]
    · rw [if_neg (by omega)]

theorem bytes_ne_nil {m : Mem} {off len : Nat} (h : 0 < len) : bytes m off len ≠ [] := by
  intro he
  have := congrArg List.length he
  rw [bytes_length] at this
  simp at this; omega

theorem parts_rc (S : Src) (p : Peer) (n len doff k : Nat) : (parts S p (fun _ => 0) n len doff k).2 = 0 := by
  induction n generalizing len doff k with
  | zero => rfl
  | succ n ih =>
    simp only [parts]
    split
    · rfl
    · simp only [ne_eq, not_true, if_false]; exact ih _ _ _

/-- The parts put together are the whole, with one call. -/
theorem receive_parts (S : Src) (p : Peer) (r : Rcv) (n len doff k : Nat)
    (hmax : hdrLen < p.maxLen) (hfl : p.flags &&& fCancel = 0) (hlen : 0 < len) (hn : len ≤ n)
    (hid : p.remote = r.id) (hf : r.fault = false) (hw : r.writable = true) (hsz : doff + len ≤ r.size) :
    receiveAll r (parts S p (fun _ => 0) n len doff k).1 =
      { r with mem := overlay r.mem S.mem doff len
               calls := r.calls ++ [⟨false, overlay r.mem S.mem doff len⟩] } := by
  induction n generalizing len doff k r with
  | zero => omega
  | succ n ih =>
    simp only [parts]
    rw [if_neg (by omega), if_neg (by simp)]
    simp only [receiveAll, List.foldl_cons]
    by_cases hb : len + hdrLen > p.maxLen
    · simp only [hb, if_true, decide_true]
      have hd : 0 < p.maxLen - hdrLen := by omega
      have h1 : receive r ⟨p.remote, true, decide (p.flags &&& fCancel ≠ 0), doff, bytes S.mem doff (p.maxLen - hdrLen)⟩ =
          { r with mem := store r.mem doff (bytes S.mem doff (p.maxLen - hdrLen)) } := by
        have hne := bytes_ne_nil (m := S.mem) (off := doff) hd
        unfold receive
        rw [if_neg (by simp [hf]), if_neg (by simp [hid]), if_neg (by simp [hw]),
          if_neg (by simp only [bytes_length]; omega)]
        simp only [if_pos hne, if_true]
      rw [h1]
      have := ih { r with mem := store r.mem doff (bytes S.mem doff (p.maxLen - hdrLen)) }
        (len - (p.maxLen - hdrLen)) (doff + (p.maxLen - hdrLen)) (k + 1) (by omega) (by omega) hid hf hw
        (by simp only; omega)
      simp only [receiveAll] at this
      rw [this]
      simp only [overlay_step r.mem S.mem doff (p.maxLen - hdrLen) len (by omega)]
    · simp only [hb, if_false, decide_false]
      have h1 : receive r ⟨p.remote, false, decide (p.flags &&& fCancel ≠ 0), doff, bytes S.mem doff len⟩ =
          { r with mem := overlay r.mem S.mem doff len
                   calls := r.calls ++ [⟨false, overlay r.mem S.mem doff len⟩] } := by
        have h2 : store r.mem doff (bytes S.mem doff len) = overlay r.mem S.mem doff len := by
          funext j; rw [store_bytes]; rfl
        have hne := bytes_ne_nil (m := S.mem) (off := doff) hlen
        unfold receive
        rw [if_neg (by simp [hf]), if_neg (by simp [hid]), if_neg (by simp [hw]),
          if_neg (by simp only [bytes_length]; omega)]
        simp only [if_pos hne, h2, hfl]
        simp
      rw [h1, Nat.sub_self]
      cases n with
      | zero => rfl
      | succ n => simp [parts]

/-! ## A push to many peers -/

theorem pushOne_rc (S : Src) (pf : Nat) (p : Peer) : (pushOne S pf (fun _ => 0) p).2.1 = 0 := by
  unfold pushOne
  split
  · rfl
  · split
    · rfl
    · split <;> exact parts_rc _ _ _ _ _ _

theorem pushOne_id (S : Src) (pf : Nat) (rc : Nat → Nat) (p : Peer) :
    (pushOne S pf rc p).2.2 = { p with metaGn := (pushOne S pf rc p).2.2.metaGn } := by
  unfold pushOne
  split
  · rfl
  · split
    · rfl
    · split <;> rfl

theorem toPeer_append (id : Nat) (a b : List (Nat × Msg)) : toPeer id (a ++ b) = toPeer id a ++ toPeer id b := by
  induction a with
  | nil => rfl
  | cons x a ih =>
    obtain ⟨i, m⟩ := x
    simp only [List.cons_append, toPeer, ih]
    split <;> rfl

theorem toPeer_map (id i : Nat) (l : List Msg) :
    toPeer id (l.map fun m => (i, m)) = if i = id then l else [] := by
  induction l with
  | nil => simp [toPeer]
  | cons m l ih =>
    simp only [List.map_cons, toPeer, ih]
    split <;> rfl

theorem push_peers (S : Src) (pf : Nat) (ps : List Peer) :
    (push S pf (fun _ _ => 0) ps).1 = ps.map fun p => (pushOne S pf (fun _ => 0) p).2.2 := by
  induction ps with
  | nil => rfl
  | cons p ps ih => simp only [push, pushOne_rc, ne_eq, not_true, if_false, ih, List.map_cons]

def peerOf (id : Nat) (ps : List Peer) : Option Peer := ps.find? fun p => p.id = id

/-- Messages of a push to a peer. -/
def pushTo (S : Src) (pf : Nat) : Option Peer → List Msg
  | none => []
  | some p => (pushOne S pf (fun _ => 0) p).1

theorem push_toPeer (S : Src) (pf id : Nat) (ps : List Peer) (hnd : (ps.map Peer.id).Nodup) :
    toPeer id (push S pf (fun _ _ => 0) ps).2.1 = pushTo S pf (peerOf id ps) := by
  induction ps with
  | nil => rfl
  | cons p ps ih =>
    rw [List.map_cons, List.nodup_cons] at hnd
    simp only [push, pushOne_rc, ne_eq, not_true, if_false, toPeer_append, toPeer_map, ih hnd.2]
    by_cases hp : p.id = id
    · have : peerOf id ps = none := by
        rw [peerOf, List.find?_eq_none]
        intro q hq he
        apply hnd.1
        rw [hp, ← of_decide_eq_true he]
        exact List.mem_map_of_mem hq
      rw [this, if_pos hp]
      simp [peerOf, hp, pushTo]
    · simp [hp, peerOf]

theorem peerOf_map (id : Nat) (f : Peer → Peer) (hf : ∀ p, (f p).id = p.id) (ps : List Peer) :
    peerOf id (ps.map f) = (peerOf id ps).map f := by
  induction ps with
  | nil => rfl
  | cons p ps ih =>
    simp only [peerOf, List.map_cons, List.find?_cons, hf]
    split
    · rfl
    · exact ih

theorem register_ids (id remote flags : Nat) (guard : Bool) (maxLen : Nat) (ps : List Peer)
    (h : (ps.map Peer.id).Nodup) : ((register id remote flags guard maxLen ps).map Peer.id).Nodup := by
  have hmem : ∀ ps : List Peer, ∀ x, x ∈ (register id remote flags guard maxLen ps).map Peer.id ↔
      x = id ∨ x ∈ ps.map Peer.id := by
    intro ps
    induction ps with
    | nil => simp [register]
    | cons p ps ih =>
      intro x
      simp only [register]
      split
      · rename_i hp
        simp only [List.map_cons, List.mem_cons, hp]
        constructor
        · rintro (h | h)
          · exact .inl h
          · exact .inr (.inr h)
        · rintro (h | h | h)
          · exact .inl h
          · exact .inl h
          · exact .inr h
      · simp only [List.map_cons, List.mem_cons, ih]
        constructor
        · rintro (h | h | h)
          · exact .inr (.inl h)
          · exact .inl h
          · exact .inr (.inr h)
        · rintro (h | h | h)
          · exact .inr (.inl h)
          · exact .inl h
          · exact .inr (.inr h)
  induction ps with
  | nil => simp [register]
  | cons p ps ih =>
    rw [List.map_cons, List.nodup_cons] at h
    simp only [register]
    split
    · rw [List.map_cons, List.nodup_cons]; exact h
    · rename_i hp
      rw [List.map_cons, List.nodup_cons, hmem]
      exact ⟨fun hx => hx.elim hp h.1, ih h.2⟩

theorem register_other {id i remote flags : Nat} {guard : Bool} {maxLen : Nat} (h : i ≠ id) (ps : List Peer) :
    peerOf id (register i remote flags guard maxLen ps) = peerOf id ps := by
  induction ps with
  | nil => simp [register, peerOf, h]
  | cons p ps ih =>
    simp only [register]
    split
    · rename_i hp
      have : p.id ≠ id := fun he => h (hp ▸ he)
      simp [peerOf, this]
    · simp only [peerOf, List.find?_cons]
      split
      · rfl
      · exact ih

/-- What a peer is after it registers. -/
def registered (id remote flags : Nat) (guard : Bool) (maxLen : Nat) : Option Peer → Peer
  | none => ⟨id, remote, flags, 0, guard, maxLen⟩
  | some p => { p with flags := flags, remote := remote }

theorem register_self (id remote flags : Nat) (guard : Bool) (maxLen : Nat) (ps : List Peer) :
    peerOf id (register id remote flags guard maxLen ps) =
      some (registered id remote flags guard maxLen (peerOf id ps)) := by
  induction ps with
  | nil => simp [register, peerOf, registered]
  | cons p ps ih =>
    simp only [register]
    split
    · rename_i hp; simp [peerOf, hp, registered]
    · rename_i hp
      simp only [peerOf, List.find?_cons, hp, decide_false]
      exact ih

theorem cancel_other {id i : Nat} (h : i ≠ id) (ps : List Peer) :
    peerOf id (cancel i ps).1 = peerOf id ps ∧ toPeer id (cancel i ps).2 = [] := by
  unfold cancel
  split
  · exact ⟨rfl, rfl⟩
  · refine ⟨?_, by simp [toPeer, h]⟩
    unfold peerOf
    rw [List.find?_filter]
    congr 1
    funext q
    by_cases hq : q.id = id
    · simp [hq, Ne.symm h]
    · simp [hq]

theorem cancel_self (id : Nat) (ps : List Peer) : peerOf id (cancel id ps).1 = none := by
  unfold cancel
  split
  · rename_i h; exact h
  · rw [peerOf, List.find?_eq_none]
    intro q hq
    have := (List.mem_filter.mp hq).2
    simpa using this

theorem cancel_ids (id : Nat) (ps : List Peer) (h : (ps.map Peer.id).Nodup) : ((cancel id ps).1.map Peer.id).Nodup := by
  unfold cancel
  split
  · exact h
  · exact (List.filter_sublist.map _).nodup h

/-! ## Histories -/

/-- The daemon and the peer, when all messages have been received. -/
structure Inv (id : Nat) (d : Daemon) (fl : Option Nat) (r : Rcv) (left : Nat) : Prop where
  ids : (d.peers.map Peer.id).Nodup
  card : d.src.card = 1 ∧ d.src.curr = 0
  size : r.size = d.src.metaSz + d.src.dataSz
  data : 0 < d.src.dataSz
  gn : 0 < d.src.gn ∧ d.src.gn + left < 2 ^ 32
  ok : r.fault = false ∧ r.writable = true
  reg : fl = (peerOf id d.peers).map Peer.flags
  peer : ∀ p, peerOf id d.peers = some p → p.remote = r.id ∧ p.flags < 4 ∧ p.guard = false ∧ hdrLen < p.maxLen ∧
    p.metaGn ≤ d.src.gn ∧ (p.metaGn = d.src.gn → ∀ j, j < d.src.metaSz → r.mem j = d.src.mem j)

theorem small_flags : ∀ f, f < 4 → (f &&& fCancel = 0) ∧ (f &&& fPush ≠ 0 ↔ f % 2 = 1) ∧
    (f &&& fChange ≠ 0 ↔ f / 2 % 2 = 1) := by
  unfold fCancel fPush fChange
  decide

theorem Inv.push {id : Nat} {d : Daemon} {fl : Option Nat} {r : Rcv} {left : Nat} (h : Inv id d fl r (left + 1))
    (pf : Nat) (b : Nat → Bool) (hb : ∀ f, f < 4 → (f &&& pf ≠ 0 ↔ b f = true)) :
    let t := Verif.Push.push d.src pf (fun _ _ => 0) d.peers
    let r' := receiveAll r (toPeer id t.2.1)
    Inv id { d with peers := t.1 } fl r' left ∧ r'.id = r.id ∧ r'.size = r.size ∧
      ∃ cs, r'.calls = r.calls ++ cs ∧ Agree r.size cs (if fl.any b then [some d.src.mem] else []) := by
  intro t r'
  have hpeers : t.1 = d.peers.map fun p => (pushOne d.src pf (fun _ => 0) p).2.2 := push_peers _ _ _
  have hmsgs : toPeer id t.2.1 = pushTo d.src pf (peerOf id d.peers) := push_toPeer _ _ _ _ h.ids
  have hids : (t.1.map Peer.id).Nodup := by
    rw [hpeers, List.map_map]
    have : (Peer.id ∘ fun p => (pushOne d.src pf (fun _ => 0) p).2.2) = Peer.id := by
      funext p; simp only [Function.comp]; rw [pushOne_id]
    rw [this]; exact h.ids
  have hfind : peerOf id t.1 = (peerOf id d.peers).map fun p => (pushOne d.src pf (fun _ => 0) p).2.2 := by
    rw [hpeers]
    exact peerOf_map id _ (fun p => by rw [pushOne_id]) _
  have hgn : 0 < d.src.gn ∧ d.src.gn + left < 2 ^ 32 := ⟨h.gn.1, by have := h.gn.2; omega⟩
  have hmod : d.src.gn % 2 ^ 32 = d.src.gn := Nat.mod_eq_of_lt (by have := h.gn.2; omega)
  have hdata := h.data
  cases hp : peerOf id d.peers with
  | none =>
    have hr : r' = r := by
      show receiveAll r (toPeer id t.2.1) = r
      rw [hmsgs, hp]; rfl
    rw [hr]
    have hfl : fl = none := by rw [h.reg, hp]; rfl
    refine ⟨⟨hids, h.card, h.size, h.data, hgn, h.ok, ?_, ?_⟩, rfl, rfl, [], by simp, by simp [hfl, Agree]⟩
    · simp only [hfind, hp, hfl]; rfl
    · intro p hp'
      simp only [hfind, hp] at hp'
      cases hp'
  | some p =>
    obtain ⟨h1, h2, h3, h4, h5, h6⟩ := h.peer p hp
    have hfl : fl = some p.flags := by rw [h.reg, hp]; rfl
    obtain ⟨hc, _, _⟩ := small_flags _ h2
    have hbp := hb _ h2
    have hreg' : fl = (peerOf id t.1).map Peer.flags := by
      rw [hfind, hp, hfl]
      simp only [Option.map_some]
      rw [pushOne_id]
    by_cases hz : p.flags &&& pf = 0
    · have hone : pushOne d.src pf (fun _ => 0) p = ([], 0, p) := by simp [pushOne, hz]
      have hr : r' = r := by
        show receiveAll r (toPeer id t.2.1) = r
        rw [hmsgs, hp]; simp only [pushTo, hone]; rfl
      rw [hr]
      have hbf : b p.flags = false := by
        cases hbb : b p.flags with
        | false => rfl
        | true => exact absurd hz (hbp.mpr hbb)
      refine ⟨⟨hids, h.card, h.size, h.data, hgn, h.ok, hreg', ?_⟩, rfl, rfl, [], by simp,
        by simp [hfl, hbf, Agree]⟩
      intro q hq
      rw [hfind, hp, Option.map_some, hone] at hq
      cases hq
      exact ⟨h1, h2, h3, h4, h5, h6⟩
    · have hbt : b p.flags = true := hbp.mp hz
      have hagree : ∀ cs, Agree r.size cs (if fl.any b then [some d.src.mem] else []) ↔
          Agree r.size cs [some d.src.mem] := by
        intro cs; simp [hfl, hbt]
      by_cases hg : p.metaGn = d.src.gn
      · have hone : pushOne d.src pf (fun _ => 0) p =
            ((parts d.src p (fun _ => 0) (d.src.dataSz + 1) d.src.dataSz (d.src.metaSz) 0).1, 0, p) := by
          unfold pushOne
          rw [if_neg hz, if_neg (by simp [h3]), if_neg (by simp [hg, hmod]), h.card.2, Nat.zero_mul]
          simp only [parts_rc, Nat.add_zero]
        have hr : r' = { r with
            mem := overlay r.mem d.src.mem d.src.metaSz d.src.dataSz
            calls := r.calls ++ [⟨false, overlay r.mem d.src.mem d.src.metaSz d.src.dataSz⟩] } := by
          show receiveAll r (toPeer id t.2.1) = _
          rw [hmsgs, hp]
          simp only [pushTo, hone]
          exact receive_parts d.src p r _ _ _ _ h4 hc h.data (by omega) h1 h.ok.1 h.ok.2 (by rw [h.size]; exact Nat.le_refl _)
        have hmem : ∀ j, j < r.size → overlay r.mem d.src.mem d.src.metaSz d.src.dataSz j = d.src.mem j := by
          intro j hj
          simp only [overlay]
          split
          · rfl
          · apply h6 hg; rw [h.size] at hj; omega
        rw [hr]
        refine ⟨⟨hids, h.card, h.size, h.data, hgn, h.ok, hreg', ?_⟩, rfl, rfl, _, rfl, ?_⟩
        · intro q hq
          rw [hfind, hp, Option.map_some, hone] at hq
          cases hq
          exact ⟨h1, h2, h3, h4, h5, fun _ j hj => hmem j (by rw [h.size]; simp only at hj; omega)⟩
        · rw [hagree]
          exact ⟨rfl, hmem, trivial⟩
      · have hone : pushOne d.src pf (fun _ => 0) p =
            ((parts d.src p (fun _ => 0) (d.src.metaSz + d.src.dataSz + 1) (d.src.metaSz + d.src.dataSz) 0 0).1, 0,
              { p with metaGn := d.src.gn }) := by
          unfold pushOne
          rw [if_neg hz, if_neg (by simp [h3]), if_pos (by rw [hmod]; exact hg)]
          simp only [parts_rc, hmod]
        have hr : r' = { r with
            mem := overlay r.mem d.src.mem 0 (d.src.metaSz + d.src.dataSz)
            calls := r.calls ++ [⟨false, overlay r.mem d.src.mem 0 (d.src.metaSz + d.src.dataSz)⟩] } := by
          show receiveAll r (toPeer id t.2.1) = _
          rw [hmsgs, hp]
          simp only [pushTo, hone]
          exact receive_parts d.src p r _ _ _ _ h4 hc (by omega) (by omega) h1 h.ok.1 h.ok.2
            (by rw [h.size]; omega)
        have hmem : ∀ j, j < r.size → overlay r.mem d.src.mem 0 (d.src.metaSz + d.src.dataSz) j = d.src.mem j := by
          intro j hj
          simp only [overlay]
          rw [h.size] at hj
          rw [if_pos (by omega)]
        rw [hr]
        refine ⟨⟨hids, h.card, h.size, h.data, hgn, h.ok, hreg', ?_⟩, rfl, rfl, _, rfl, ?_⟩
        · intro q hq
          rw [hfind, hp, Option.map_some, hone] at hq
          cases hq
          exact ⟨h1, h2, h3, h4, Nat.le_refl _, fun _ j hj => hmem j (by rw [h.size]; simp only at hj; omega)⟩
        · rw [hagree]
          exact ⟨rfl, hmem, trivial⟩

theorem agree_append {size : Nat} {a c : List Call} {b e : List (Option Mem)} (h : Agree size a b) (h' : Agree size c e) :
    Agree size (a ++ c) (b ++ e) := by
  induction a generalizing b with
  | nil =>
    cases b with
    | nil => exact h'
    | cons _ _ => exact h.elim
  | cons x a ih =>
    cases b with
    | nil => exact h.elim
    | cons y b =>
      cases y with
      | none => exact ⟨h.1, ih h.2⟩
      | some m => exact ⟨h.1, h.2.1, ih h.2.2⟩

theorem receiveAll_append (r : Rcv) (a b : List Msg) : receiveAll r (a ++ b) = receiveAll (receiveAll r a) b := by
  simp [receiveAll]

/-- A history. -/
theorem Inv.history {id : Nat} (os : List (Op × (Nat → Nat → Nat))) {d : Daemon} {fl : Option Nat} {r : Rcv}
    (h : Inv id d fl r os.length) (hu : ∀ o ∈ os, Usual id r.id o) :
    (receiveAll r (toPeer id (Verif.Push.history d os).2)).fault = false ∧
    ∃ cs, (receiveAll r (toPeer id (Verif.Push.history d os).2)).calls = r.calls ++ cs ∧
      Agree r.size cs (expect id d fl os) := by
  induction os generalizing d fl r with
  | nil => exact ⟨h.ok.1, [], by simp [Verif.Push.history, toPeer, receiveAll], trivial⟩
  | cons x os ih =>
    obtain ⟨o, rc⟩ := x
    have hux := hu (o, rc) List.mem_cons_self
    have hus : ∀ o ∈ os, Usual id r.id o := fun o ho => hu o (List.mem_cons_of_mem _ ho)
    have hgn : 0 < d.src.gn ∧ d.src.gn + os.length < 2 ^ 32 := ⟨h.gn.1, by
      have := h.gn.2; simp only [List.length_cons] at this; omega⟩
    simp only [Verif.Push.history, toPeer_append, receiveAll_append]
    -- operations that send nothing and leave the peers
    have quiet : ∀ d' : Daemon, op rc d o = (d', []) → Inv id d' fl r os.length →
        expect id d fl ((o, rc) :: os) = expect id d' fl os →
        (receiveAll (receiveAll r (toPeer id (op rc d o).2)) (toPeer id (Verif.Push.history (op rc d o).1 os).2)).fault = false ∧
        ∃ cs, (receiveAll (receiveAll r (toPeer id (op rc d o).2)) (toPeer id (Verif.Push.history (op rc d o).1 os).2)).calls =
            r.calls ++ cs ∧ Agree r.size cs (expect id d fl ((o, rc) :: os)) := by
      intro d' he hi hex
      rw [he, hex]
      exact ih hi hus
    cases o with
    | data i v =>
      refine quiet _ rfl ?_ rfl
      refine ⟨h.ids, h.card, h.size, h.data, hgn, h.ok, h.reg, ?_⟩
      intro p hp
      obtain ⟨h1, h2, h3, h4, h5, h6⟩ := h.peer p hp
      refine ⟨h1, h2, h3, h4, h5, fun hg j hj => ?_⟩
      rw [h6 hg j hj]
      simp only
      split
      · simp only [poke]
        rw [if_neg (by simp only at hj; omega)]
      · rfl
    | metaGn i v =>
      refine quiet _ rfl ?_ rfl
      refine ⟨h.ids, h.card, h.size, h.data, ⟨by simp, ?_⟩, h.ok, h.reg, ?_⟩
      · have := h.gn.2; simp only [List.length_cons] at this; simp only; omega
      · intro p hp
        obtain ⟨h1, h2, h3, h4, h5, h6⟩ := h.peer p hp
        exact ⟨h1, h2, h3, h4, Nat.le_succ_of_le h5, fun hg => by simp only at hg; omega⟩
    | metaRaw i v => exact hux.elim
    | next =>
      refine quiet _ rfl ?_ rfl
      have hc : (d.src.curr + 1) % d.src.card = 0 := by rw [h.card.1]; exact Nat.mod_one _
      exact ⟨h.ids, ⟨h.card.1, hc⟩, h.size, h.data, hgn, h.ok, h.reg, h.peer⟩
    | push =>
      have hrc : rc = fun _ _ => 0 := hux
      subst hrc
      obtain ⟨h1, h2, h3, cs, h4, h5⟩ := h.push fPush (fun f => decide (f % 2 = 1))
        (fun f hf => by rw [decide_eq_true_iff]; exact (small_flags f hf).2.1)
      obtain ⟨g1, cs', g2, g3⟩ := ih h1 (by rw [h2]; exact hus)
      refine ⟨g1, cs ++ cs', ?_, ?_⟩
      · simp only [op] at g2 h4 ⊢
        rw [g2, h4, List.append_assoc]
      · simp only [op, expect]
        rw [h3] at g3
        exact agree_append h5 g3
    | change =>
      have hrc : rc = fun _ _ => 0 := hux
      subst hrc
      obtain ⟨h1, h2, h3, cs, h4, h5⟩ := h.push fChange (fun f => decide (f / 2 % 2 = 1))
        (fun f hf => by rw [decide_eq_true_iff]; exact (small_flags f hf).2.2)
      obtain ⟨g1, cs', g2, g3⟩ := ih h1 (by rw [h2]; exact hus)
      refine ⟨g1, cs ++ cs', ?_, ?_⟩
      · simp only [op] at g2 h4 ⊢
        rw [g2, h4, List.append_assoc]
      · simp only [op, expect]
        rw [h3] at g3
        exact agree_append h5 g3
    | register i remote flags guard maxLen =>
      obtain ⟨hi, -⟩ := hux
      have hexp : expect id d fl ((.register i remote flags guard maxLen, rc) :: os) =
          expect id (op rc d (.register i remote flags guard maxLen)).1 (if i = id then some flags else fl) os := rfl
      rw [hexp]
      simp only [op, toPeer, receiveAll, List.foldl_nil]
      refine ih ⟨register_ids _ _ _ _ _ _ h.ids, h.card, h.size, h.data, hgn, h.ok, ?_, ?_⟩ hus
      · by_cases he : i = id
        · subst he
          rw [if_pos rfl, register_self]
          cases peerOf i d.peers <;> rfl
        · rw [if_neg he, register_other he]; exact h.reg
      · intro p hp
        by_cases he : i = id
        · subst he
          obtain ⟨e1, e2, e3, e4⟩ := hi rfl
          rw [register_self] at hp
          cases hq : peerOf i d.peers with
          | none =>
            rw [hq] at hp
            cases hp
            exact ⟨e1, e2, e3, e4, Nat.zero_le _, fun hg => by
              have := h.gn.1; simp only [registered] at hg; omega⟩
          | some q =>
            rw [hq] at hp
            cases hp
            obtain ⟨h1, h2, h3, h4, h5, h6⟩ := h.peer q hq
            exact ⟨e1, e2, h3, h4, h5, h6⟩
        · rw [register_other he] at hp
          exact h.peer p hp
    | cancel i =>
      by_cases he : i = id
      · subst he
        cases hq : peerOf i d.peers with
        | none =>
          have hfl : fl = none := by rw [h.reg, hq]; rfl
          have hc : Verif.Push.cancel i d.peers = (d.peers, []) := by
            unfold Verif.Push.cancel
            simp only [peerOf] at hq
            rw [hq]
          refine quiet d (by simp [op, hc]) ⟨h.ids, h.card, h.size, h.data, hgn, h.ok, h.reg, h.peer⟩ ?_
          simp [expect, hfl, op, hc]
        | some q =>
          obtain ⟨h1, h2, h3, h4, h5, h6⟩ := h.peer q hq
          have hfl : fl = some q.flags := by rw [h.reg, hq]; rfl
          have hc : (Verif.Push.cancel i d.peers).2 = [(i, ⟨q.remote, false, true, 0, []⟩)] := by
            unfold Verif.Push.cancel
            simp only [peerOf] at hq
            rw [hq]
          have hexp : expect i d fl ((.cancel i, rc) :: os) = none :: expect i (op rc d (.cancel i)).1 none os := by
            simp [expect, hfl]
          rw [hexp]
          have hr : receiveAll r (toPeer i (op rc d (.cancel i)).2) = { r with calls := r.calls ++ [⟨true, r.mem⟩] } := by
            simp only [op, hc, toPeer, if_true, receiveAll, List.foldl_cons, List.foldl_nil]
            unfold receive
            simp [h.ok.1, h.ok.2, h1]
          rw [hr]
          have hi : Inv i (op rc d (.cancel i)).1 none { r with calls := r.calls ++ [⟨true, r.mem⟩] } os.length := by
            refine ⟨cancel_ids _ _ h.ids, h.card, h.size, h.data, hgn, h.ok, ?_, ?_⟩
            · simp only [op, cancel_self]; rfl
            · intro p hp
              simp only [op, cancel_self] at hp
              cases hp
          obtain ⟨g1, cs, g2, g3⟩ := ih hi hus
          exact ⟨g1, ⟨true, r.mem⟩ :: cs, by rw [g2]; simp, rfl, g3⟩
      · obtain ⟨hc1, hc2⟩ := cancel_other (id := id) he d.peers
        have hexp : expect id d fl ((.cancel i, rc) :: os) = expect id (op rc d (.cancel i)).1 fl os := by
          simp [expect, he]
        rw [hexp]
        have hr : receiveAll r (toPeer id (op rc d (.cancel i)).2) = r := by
          simp only [op, hc2]; rfl
        rw [hr]
        refine ih ⟨cancel_ids _ _ h.ids, h.card, h.size, h.data, hgn, h.ok, ?_, ?_⟩ hus
        · simp only [op, hc1]; exact h.reg
        · intro p hp
          simp only [op, hc1] at hp
          exact h.peer p hp

/-! ## Beginnings -/

theorem receive_mono (r : Rcv) (m : Msg) :
    r.calls <+: (receive r m).calls ∧ (r.fault = true → (receive r m).fault = true) := by
  unfold receive
  split
  · rename_i h; exact ⟨List.prefix_refl _, fun _ => h⟩
  · rename_i h
    have : r.fault ≠ true := h
    refine ⟨?_, fun h' => absurd h' this⟩
    split
    · exact List.prefix_refl _
    · split
      · exact List.prefix_refl _
      · split
        · exact List.prefix_refl _
        · simp only
          by_cases hm : m.more = true
          · rw [if_pos hm]; exact List.prefix_refl _
          · rw [if_neg hm]; exact List.prefix_append _ _

theorem receiveAll_mono (r : Rcv) (ms : List Msg) :
    r.calls <+: (receiveAll r ms).calls ∧ (r.fault = true → (receiveAll r ms).fault = true) := by
  induction ms generalizing r with
  | nil => exact ⟨List.prefix_refl _, fun h => h⟩
  | cons m ms ih =>
    have h1 := receive_mono r m
    have h2 := ih (receive r m)
    exact ⟨h1.1.trans h2.1, fun h => h2.2 (h1.2 h)⟩

theorem agree_prefix {size : Nat} {a b : List Call} {e : List (Option Mem)} (h : Agree size b e) (hp : a <+: b) :
    ∃ e', e' <+: e ∧ Agree size a e' := by
  induction a generalizing b e with
  | nil => exact ⟨[], List.nil_prefix, trivial⟩
  | cons x a ih =>
    cases b with
    | nil => exact absurd (List.IsPrefix.length_le hp) (by simp)
    | cons y b =>
      obtain ⟨rfl, hp'⟩ := List.cons_prefix_cons.mp hp
      cases e with
      | nil => exact h.elim
      | cons z e =>
        cases z with
        | none =>
          obtain ⟨e', h1, h2⟩ := ih h.2 hp'
          exact ⟨none :: e', List.cons_prefix_cons.mpr ⟨rfl, h1⟩, h.1, h2⟩
        | some m =>
          obtain ⟨e', h1, h2⟩ := ih h.2.2 hp'
          exact ⟨some m :: e', List.cons_prefix_cons.mpr ⟨rfl, h1⟩, h.1, h.2.1, h2⟩

end Verif.Push
