import Verif.Push.Proofs

/-!
# Pushing sets
-/

namespace Verif.Push

/-- A daemon with a set, to begin with. -/
def fresh (S : Src) : Daemon := ⟨S, []⟩

/-- Any history, with any number of peers that come and go: a peer that has received a beginning of the messages sent to it has
been called once for each push it is registered for, in order, each time with the memory of the set as it was at
the push; when it has received all of them, for all of them.  It never writes outside of the set.  Missing:
rings of more than one element (`push_array_defect`), sends that fail (`push_failed_defect`), owner and permissions
set without a new generation number (`push_owner_defect`), 2^32 changes of the metadata (`push_wrap_defect`). -/
theorem push_history_partial (S : Src) (id : Nat) (r : Rcv) (os : List (Op × (Nat → Nat → Nat)))
    (hcard : S.card = 1 ∧ S.curr = 0) (hsize : r.size = S.metaSz + S.dataSz) (hdata : 0 < S.dataSz)
    (hgn : 0 < S.gn ∧ S.gn + os.length < 2 ^ 32) (hr : r.fault = false ∧ r.writable = true ∧ r.calls = [])
    (hu : ∀ o ∈ os, Usual id r.id o) :
    (∀ ms, ms <+: toPeer id (history (fresh S) os).2 →
      (receiveAll r ms).fault = false ∧
      ∃ es, es <+: expect id (fresh S) none os ∧ Agree r.size (receiveAll r ms).calls es) ∧
    Agree r.size (receiveAll r (toPeer id (history (fresh S) os).2)).calls (expect id (fresh S) none os) := by
  have hi : Inv id (fresh S) none r os.length :=
    ⟨List.nodup_nil, hcard, hsize, hdata, hgn, ⟨hr.1, hr.2.1⟩, rfl, (fun p hp => by cases hp)⟩
  obtain ⟨h1, cs, h2, h3⟩ := hi.history os hu
  rw [hr.2.2, List.nil_append] at h2
  refine ⟨?_, by rw [h2]; exact h3⟩
  rintro ms ⟨rest, hrest⟩
  have hm := receiveAll_mono (receiveAll r ms) rest
  rw [← receiveAll_append, hrest] at hm
  constructor
  · cases hf : (receiveAll r ms).fault with
    | false => rfl
    | true => have := hm.2 hf; rw [h1] at this; cases this
  · rw [h2] at hm
    exact agree_prefix h3 hm.1

/-- One push to a peer that has the metadata: the bytes of the current element are those of the daemon, and no other byte
changes; any ring, any size of message. -/
theorem push_element (S : Src) (p : Peer) (r : Rcv) (pf : Nat) (hf : p.flags &&& pf ≠ 0) (hc : p.flags &&& fCancel = 0)
    (hg : p.guard = false) (hm : p.metaGn = S.gn % 2 ^ 32) (hmax : hdrLen < p.maxLen) (hdata : 0 < S.dataSz)
    (hcurr : S.curr < S.card) (hsize : r.size = S.metaSz + S.card * S.dataSz) (hid : p.remote = r.id)
    (hr : r.fault = false ∧ r.writable = true) :
    let r' := receiveAll r (pushOne S pf (fun _ => 0) p).1
    let at' := S.metaSz + S.curr * S.dataSz
    r'.fault = false ∧ r'.calls.length = r.calls.length + 1 ∧
    (∀ j, at' ≤ j → j < at' + S.dataSz → r'.mem j = S.mem j) ∧
    ∀ j, (j < at' ∨ at' + S.dataSz ≤ j) → r'.mem j = r.mem j := by
  intro r' at'
  have hle : S.curr * S.dataSz + S.dataSz ≤ S.card * S.dataSz := by
    rw [← Nat.succ_mul]; exact Nat.mul_le_mul_right _ hcurr
  have h1 : r' = { r with mem := overlay r.mem S.mem at' S.dataSz
                          calls := r.calls ++ [⟨false, overlay r.mem S.mem at' S.dataSz⟩] } := by
    show receiveAll r (pushOne S pf (fun _ => 0) p).1 = _
    unfold pushOne
    rw [if_neg hf, if_neg (by simp [hg]), if_neg (by simp [hm])]
    exact receive_parts S p r _ _ _ _ hmax hc hdata (by omega) hid hr.1 hr.2 (by rw [hsize]; omega)
  rw [h1]
  refine ⟨hr.1, by simp, ?_, ?_⟩
  · intro j h h'
    simp only [overlay]
    rw [if_pos ⟨h, h'⟩]
  · intro j h
    simp only [overlay]
    rw [if_neg (by omega)]

/-- Every message fits the transport. -/
theorem push_fits (S : Src) (p : Peer) (rc : Nat → Nat) (pf : Nat) (hmax : hdrLen < p.maxLen) :
    ∀ m ∈ (pushOne S pf rc p).1, hdrLen + m.data.length ≤ p.maxLen := by
  have key : ∀ n len doff k, ∀ m ∈ (parts S p rc n len doff k).1, hdrLen + m.data.length ≤ p.maxLen := by
    intro n
    induction n with
    | zero => intro len doff k m hm; cases hm
    | succ n ih =>
      intro len doff k m hm
      simp only [parts] at hm
      split at hm
      · cases hm
      · split at hm
        · cases hm
        · rcases List.mem_cons.mp hm with rfl | hm
          · simp only [bytes_length]
            split <;> omega
          · exact ih _ _ _ m hm
  intro m hm
  unfold pushOne at hm
  split at hm
  · cases hm
  · split at hm
    · cases hm
    · split at hm <;> exact key _ _ _ _ m hm

/-- A peer that did not register, or is not authenticated, is sent nothing, whatever fails. -/
theorem push_unregistered (S : Src) (pf id : Nat) (rc : Nat → Nat → Nat) (ps : List Peer)
    (h : ∀ p ∈ ps, p.id = id → p.flags &&& pf = 0 ∨ p.guard = true) :
    toPeer id (push S pf rc ps).2.1 = [] := by
  induction ps with
  | nil => rfl
  | cons p ps ih =>
    have ih' := ih fun q hq => h q (List.mem_cons_of_mem _ hq)
    have h1 : toPeer id ((pushOne S pf (rc p.id) p).1.map fun m => (p.id, m)) = [] := by
      rw [toPeer_map]
      split
      · rename_i hp
        rcases h p List.mem_cons_self hp with hz | hz
        · simp [pushOne, hz]
        · unfold pushOne
          split
          · rfl
          · rfl
      · rfl
    simp only [push]
    split
    · exact h1
    · rw [toPeer_append, h1, ih']; rfl

/-- A peer that may not write the set, or that has no such set, is not affected. -/
theorem push_not_writable (r : Rcv) (ms : List Msg) (h : r.writable = false ∨ ∀ m ∈ ms, m.setId ≠ r.id) :
    receiveAll r ms = r := by
  induction ms with
  | nil => rfl
  | cons m ms ih =>
    have h1 : receive r m = r := by
      unfold receive
      split
      · rfl
      · rcases h with h | h
        · split
          · rfl
          · simp [h]
        · rw [if_pos (h m List.mem_cons_self)]
    show receiveAll (receive r m) ms = r
    rw [h1]
    exact ih (h.imp id fun h m hm => h m (List.mem_cons_of_mem _ hm))

/-! ## Where it goes wrong -/

def okRc : Nat → Nat → Nat := fun _ _ => 0

/-- A set of one byte of metadata and one of data, in a ring of `card`. -/
def small (card curr gn : Nat) (bytes : List Nat) : Src := ⟨1, 1, card, curr, gn, fun j => bytes.getD j 0⟩

def rcv (size : Nat) : Rcv := ⟨7, size, fun _ => 0, true, [], false⟩

def pA : Peer := ⟨1, 7, 1, 0, false, 100⟩

/-- A ring of two whose current element is the second: the first push brings the metadata and the first element, and what the function
called sees is not what the daemon has. -/
theorem push_array_defect :
    let S := small 2 1 1 [5, 6, 8]
    let r := receiveAll (rcv 3) (pushOne S fPush (fun _ => 0) pA).1
    bytes r.mem 0 3 = [5, 6, 0] ∧ Rcv.shown S r.mem = [0] ∧ bytes S.mem (S.metaSz + S.curr * S.dataSz) S.dataSz = [8] := by
  decide

/-- The same with the metadata in place and the first element current: the element comes, but another is shown. -/
theorem push_shown_defect :
    let S := small 2 0 1 [5, 6, 8]
    let r := receiveAll (rcv 3) (pushOne S fPush (fun _ => 0) { pA with metaGn := 1 }).1
    bytes r.mem 0 3 = [0, 6, 0] ∧ Rcv.shown S r.mem = [0] ∧ r.calls.length = 1 := by
  decide

/-- The send of the push that brings changed metadata fails: the metadata do not come with any later push. -/
theorem push_failed_defect :
    let h := history ⟨small 1 0 2 [5, 6], [pA]⟩ [(.push, fun _ _ => 5), (.push, okRc), (.push, okRc)]
    bytes (receiveAll (rcv 2) (toPeer 1 h.2)).mem 0 2 = [0, 6] ∧
    (receiveAll (rcv 2) (toPeer 1 h.2)).calls.length = 2 := by
  decide

/-- The send to one peer fails: those after it get nothing. -/
theorem push_others_defect :
    let t := push (small 1 0 1 [5, 6]) fPush (fun i _ => if i = 1 then 5 else 0) [pA, { pA with id := 2 }]
    (toPeer 2 t.2.1).length = 0 ∧
    (toPeer 2 (push (small 1 0 1 [5, 6]) fPush okRc [pA, { pA with id := 2 }]).2.1).length = 1 := by
  decide

/-- The owner or the permissions are set: no push brings it. -/
theorem push_owner_defect :
    let h := history (fresh (small 1 0 1 [5, 6]))
      [(.register 1 7 1 false 100, okRc), (.push, okRc), (.metaRaw 0 9, okRc), (.push, okRc)]
    bytes h.1.src.mem 0 2 = [9, 6] ∧ bytes (receiveAll (rcv 2) (toPeer 1 h.2)).mem 0 2 = [5, 6] := by
  decide

/-- A generation number that is a multiple of 2^32: the first push brings no metadata. -/
theorem push_wrap_defect :
    bytes (receiveAll (rcv 2) (pushOne (small 1 0 (2 ^ 32) [5, 6]) fPush (fun _ => 0) pA).1).mem 0 2 = [0, 6] := by
  decide

/-- The place a peer gives is not checked. -/
theorem push_overrun_defect : (receive (rcv 2) ⟨7, false, false, 2, [9]⟩).fault = true := by
  decide

/-! ## Cases -/

/-- A history as in the theorem, with a message size that cuts pushes in parts of one byte. -/
def exOps : List (Op × (Nat → Nat → Nat)) :=
  [(.register 1 7 1 false 41, okRc), (.register 2 3 3 false 100, okRc), (.data 0 4, okRc), (.push, okRc),
   (.metaGn 0 9, okRc), (.change, okRc), (.push, okRc), (.data 0 6, okRc), (.push, okRc), (.cancel 1, okRc), (.push, okRc)]

example : ∀ o ∈ exOps, Usual 1 7 o := by
  simp [exOps, Usual, hdrLen]
  rfl

example : let r := receiveAll (rcv 2) (toPeer 1 (history (fresh (small 1 0 1 [5, 0])) exOps).2)
    (toPeer 1 (history (fresh (small 1 0 1 [5, 0])) exOps).2).length = 6 ∧
    r.calls.map (fun c => (c.last, bytes c.mem 0 2)) =
      [(false, [5, 4]), (false, [9, 4]), (false, [9, 6]), (true, [9, 6])] ∧ r.fault = false := by
  decide

example : (expect 1 (fresh (small 1 0 1 [5, 0])) none exOps).map (Option.map fun m => bytes m 0 2) =
    [some [5, 4], some [9, 4], some [9, 6], none] := by
  decide

end Verif.Push
