import Verif.ZapRdma.Proofs

/-!
# C52: a peer reaches only memory that was shared with the access granted
-/

namespace Verif.ZapRdma

open Rbt (Rbt)

/-! ## What a peer can do -/

/-- **C52 (no undefined behaviour, partial).** In every reachable process, every legal operation of
the application and every request of a peer that does not run over the end of the address space and
carries the data it announces is handled without touching freed or foreign memory.  Missing: requests
that wrap around the address space, and write requests that announce more data than they carry, see
`address_wrap_defect` and `short_write_defect`; more than 2^31 shares, see `key_order_defect`. -/
theorem no_undefined_behaviour_partial {s : St} (h : Reach s) {op : Op} (hleg : LegalOp s op)
    (hwf : WellFormed op) : ∃ s' r, step s op = some (s', r) := by
  obtain ⟨hi, hlast⟩ := reach_inv h
  cases op with
  | map id addr len acc => exact ⟨_, _, rfl⟩
  | get id =>
    cases hm : s.maps id with
    | none => exact absurd hm hleg
    | some m => exact ⟨_, _, by simp only [step, hm]; rfl⟩
  | unmap id =>
    cases hm : s.maps id with
    | none => exact absurd hm hleg
    | some m =>
      have h0 : ¬ m.ref = 0 := by have := (hi.live _ _ hm).1; omega
      by_cases h1 : m.ref - 1 = 0
      · by_cases hk : m.key = 0
        · exact ⟨_, _, by simp only [step, hm, h0, h1, hk, if_true, if_false, ne_eq, not_true]; rfl⟩
        · obtain ⟨t, e, _⟩ := inv_shared_unmap hi hm hk
          exact ⟨_, _, by simp only [step, hm, h0, h1, hk, if_false, ne_eq, not_true, e]; rfl⟩
      · exact ⟨_, _, by simp only [step, hm, h0, h1, if_true, if_false, ne_eq, not_false_eq_true]; rfl⟩
  | share q id =>
    cases hm : s.maps id with
    | none => exact absurd hm hleg
    | some m =>
      by_cases hk : m.key = 0
      · obtain ⟨t, e, _⟩ := inv_share hi hm hk hlast
        exact ⟨_, _, by simp only [step, hm, e]; rfl⟩
      · exact ⟨s, .shared m.key, by simp [step, hm, keyAlloc, hk]⟩
  | poke a v => exact ⟨_, _, rfl⟩
  | readReq q key src len =>
    obtain ⟨st, e⟩ := keyValidate_some hi hleg.1 src len accRead
    have hw : src + len < 2 ^ 64 := hwf
    cases st
    · exact ⟨_, _, by simp only [step, e, hw, if_true]; rfl⟩
    all_goals exact ⟨_, _, by simp only [step, e]; rfl⟩
  | writeReq q key dst len data =>
    obtain ⟨st, e⟩ := keyValidate_some hi hleg.1 dst len accWrite
    have hw : dst + len < 2 ^ 64 ∧ len ≤ data.length := hwf
    cases st
    · exact ⟨_, _, by simp only [step, e, hw, and_self, if_true]; rfl⟩
    all_goals exact ⟨_, _, by simp only [step, e]; rfl⟩

/-- **C52 (write requests).** In every reachable process, a write request of any peer is answered
with success exactly when the target lies in a live map shared under that key that grants remote
writes; then exactly the announced bytes are stored there.  Otherwise nothing is stored and the
status says why: no such map, out of its range, or write not granted. -/
theorem remote_write_exact {s : St} (h : Reach s) {q key dst len : Nat} {data : List Byte}
    (hk : key < 2 ^ 32) (hdst : dst + len < 2 ^ 64) (hdata : len ≤ data.length) :
    ∃ s' st, step s (.writeReq q key dst len data) = some (s', .reply st []) ∧
      s'.maps = s.maps ∧
      (st = .ok ↔ Exposed s key dst len .write) ∧
      (st = .ok → ∀ a, s'.mem a = if dst ≤ a ∧ a < dst + len then data.getD (a - dst) 0 else s.mem a) ∧
      (st ≠ .ok → s'.mem = s.mem) ∧
      (st = .remoteMap ↔ Unknown s key) ∧
      (st = .remoteLen ↔ ∃ id m, s.maps id = some m ∧ m.key = key ∧ key ≠ 0 ∧
        ¬ (m.addr ≤ dst ∧ dst + len ≤ m.addr + m.len)) ∧
      (st = .remotePermission ↔ ∃ id m, s.maps id = some m ∧ m.key = key ∧ key ≠ 0 ∧
        m.addr ≤ dst ∧ dst + len ≤ m.addr + m.len ∧ ¬ Grants m.acc .write) := by
  obtain ⟨hi, _⟩ := reach_inv h
  obtain ⟨st, e, h1, h2, h3, h4⟩ := keyValidate_spec hi hk .write hdst
  simp only at e
  cases st
  · refine ⟨{ s with mem := memWrite s.mem dst len data }, .ok, ?_, rfl, h1, fun _ _ => rfl,
      fun hn => absurd rfl hn, h2, h3, h4⟩
    simp only [step, e, hdst, hdata, and_self, if_true]
  all_goals
    exact ⟨s, _, by simp only [step, e], rfl, h1, fun x => (by cases x), fun _ => rfl, h2, h3, h4⟩

/-- **C52 (read requests).** In every reachable process, a read request of any peer returns data
exactly when the source lies in a live map shared under that key that grants remote reads; the data
are the current bytes of that range.  Otherwise the reply carries no data and says why. -/
theorem remote_read_exact {s : St} (h : Reach s) {q key src len : Nat}
    (hk : key < 2 ^ 32) (hsrc : src + len < 2 ^ 64) :
    ∃ st data, step s (.readReq q key src len) = some (s, .reply st data) ∧
      (st = .ok ↔ Exposed s key src len .read) ∧
      (st = .ok → data.length = len ∧ ∀ i, i < len → data[i]? = some (s.mem (src + i))) ∧
      (st ≠ .ok → data = []) ∧
      (st = .remoteMap ↔ Unknown s key) ∧
      (st = .remoteLen ↔ ∃ id m, s.maps id = some m ∧ m.key = key ∧ key ≠ 0 ∧
        ¬ (m.addr ≤ src ∧ src + len ≤ m.addr + m.len)) ∧
      (st = .remotePermission ↔ ∃ id m, s.maps id = some m ∧ m.key = key ∧ key ≠ 0 ∧
        m.addr ≤ src ∧ src + len ≤ m.addr + m.len ∧ ¬ Grants m.acc .read) := by
  obtain ⟨hi, _⟩ := reach_inv h
  obtain ⟨st, e, h1, h2, h3, h4⟩ := keyValidate_spec hi hk .read hsrc
  simp only at e
  cases st
  · refine ⟨.ok, memRead s.mem src len, ?_, h1, fun _ => ⟨by simp [memRead], ?_⟩,
      fun hn => absurd rfl hn, h2, h3, h4⟩
    · simp only [step, e, hsrc, if_true]
    · intro i hi
      simp [memRead, List.getElem?_range hi]
  all_goals
    exact ⟨_, [], by simp only [step, e], h1, fun x => (by cases x), fun _ => rfl, h2, h3, h4⟩

/-- **C52 (confinement).** Whatever a peer sends, honest or not: if the request is survived, memory
changed only inside a live map shared under the key of the request with write access, and only a
write request changes memory. -/
theorem remote_confined {s : St} (h : Reach s) {op : Op} (hleg : LegalOp s op) {s' : St} {r : Resp}
    (e : step s op = some (s', r)) {a : Nat} (hch : s'.mem a ≠ s.mem a) :
    (∃ v, op = .poke a v) ∨
    (∃ q key dst len data, op = .writeReq q key dst len data ∧
      ∃ id m, s.maps id = some m ∧ m.key = key ∧ key ≠ 0 ∧ m.addr ≤ a ∧ a < m.addr + m.len ∧
        Grants m.acc .write) := by
  obtain ⟨hi, hlast⟩ := reach_inv h
  cases op with
  | map id addr len acc =>
    simp only [step, Option.some.injEq, Prod.mk.injEq] at e
    obtain ⟨rfl, _⟩ := e; exact absurd rfl hch
  | get id =>
    cases hm : s.maps id with
    | none => exact absurd hm hleg
    | some m =>
      simp only [step, hm, Option.some.injEq, Prod.mk.injEq] at e
      obtain ⟨rfl, _⟩ := e; exact absurd rfl hch
  | unmap id =>
    cases hm : s.maps id with
    | none => exact absurd hm hleg
    | some m =>
      simp only [step, hm] at e
      split at e
      · cases e
      · split at e
        · simp only [Option.some.injEq, Prod.mk.injEq] at e
          obtain ⟨rfl, _⟩ := e; exact absurd rfl hch
        · split at e
          · simp only [Option.some.injEq, Prod.mk.injEq] at e
            obtain ⟨rfl, _⟩ := e; exact absurd rfl hch
          · rename_i hk
            obtain ⟨t, e1, _⟩ := inv_shared_unmap hi hm hk
            simp only [e1, Option.some.injEq, Prod.mk.injEq] at e
            obtain ⟨rfl, _⟩ := e; exact absurd rfl hch
  | share q id =>
    cases hm : s.maps id with
    | none => exact absurd hm hleg
    | some m =>
      by_cases hk : m.key = 0
      · obtain ⟨t, e1, _⟩ := inv_share hi hm hk hlast
        simp only [step, hm, e1, Option.some.injEq, Prod.mk.injEq] at e
        obtain ⟨rfl, _⟩ := e; exact absurd rfl hch
      · simp only [step, hm, keyAlloc, ne_eq, hk, not_false_eq_true, if_true, Option.some.injEq,
          Prod.mk.injEq] at e
        obtain ⟨rfl, _⟩ := e; exact absurd rfl hch
  | poke b v =>
    simp only [step, Option.some.injEq, Prod.mk.injEq] at e
    obtain ⟨rfl, _⟩ := e
    left
    by_cases hab : a = b
    · exact ⟨v, by rw [hab]⟩
    · simp [hab] at hch
  | readReq q key src len =>
    simp only [step] at e
    split at e
    · cases e
    · split at e
      · simp only [Option.some.injEq, Prod.mk.injEq] at e
        obtain ⟨rfl, _⟩ := e; exact absurd rfl hch
      · cases e
    · simp only [Option.some.injEq, Prod.mk.injEq] at e
      obtain ⟨rfl, _⟩ := e; exact absurd rfl hch
  | writeReq q key dst len data =>
    by_cases hw : dst + len < 2 ^ 64 ∧ len ≤ data.length
    · obtain ⟨s'', st, e', _, h1, h2, h3, _⟩ := remote_write_exact h (q := q) hleg.1 hw.1 hw.2
      rw [e'] at e
      simp only [Option.some.injEq, Prod.mk.injEq] at e
      obtain ⟨rfl, _⟩ := e
      by_cases hst : st = .ok
      · obtain ⟨id, m, a1, a2, a3, a4, a5, a6⟩ := h1.1 hst
        have := h2 hst a
        split at this
        · rename_i ha
          exact .inr ⟨q, key, dst, len, data, rfl, id, m, a1, a2, a3, by omega, by omega, a6⟩
        · exact absurd this hch
      · exact absurd (by rw [h3 hst]) hch
    · simp only [step, hw, if_false] at e
      split at e
      · cases e
      · cases e
      · simp only [Option.some.injEq, Prod.mk.injEq] at e
        obtain ⟨rfl, _⟩ := e; exact absurd rfl hch

/-- **C52 (sharing makes a map reachable).** A share announces a non-zero key under which exactly
that map is reachable; a second share of the same map announces the same key. -/
theorem share_announces_key {s : St} (h : Reach s) {q id : Nat} {m : ZMap} (hm : s.maps id = some m) :
    ∃ s' k, step s (.share q id) = some (s', .shared k) ∧ k ≠ 0 ∧ k < 2 ^ 32 ∧
      s'.maps id = some { m with key := k } ∧ (∀ j, j ≠ id → s'.maps j = s.maps j) ∧
      (m.key ≠ 0 → k = m.key) ∧ (∀ j n, s'.maps j = some n → n.key = k → j = id) := by
  obtain ⟨hi, hlast⟩ := reach_inv h
  by_cases hk : m.key = 0
  · obtain ⟨t, e, h1⟩ := inv_share hi hm hk hlast
    refine ⟨_, _, by simp only [step, hm, e]; rfl, by omega, by omega, by simp [shareSt, setMap], ?_,
      fun hn => absurd hk hn, ?_⟩
    · intro j hj; simp [shareSt, setMap, hj]
    · intro j n hj hn
      exact h1.inj j id n { m with key := s.lastKey + 1 } hj (by simp [shareSt, setMap]) hn
        (by omega)
  · refine ⟨s, m.key, by simp [step, hm, keyAlloc, hk], hk, ?_, hm, fun _ _ => rfl, fun _ => rfl, ?_⟩
    · have := (hi.live _ _ hm).2.1; have := hi.last.2; omega
    · intro j n hj hn
      exact hi.inj j id n m hj hm hn (by omega)

theorem unknown_step {s : St} (hi : Inv s) {op : Op} (hleg : LegalOp s op)
    (hlast : s.lastKey + 1 < 2 ^ 31) {key : Nat} (hk : key ≤ s.lastKey) (hu : Unknown s key)
    {s' : St} {r : Resp} (e : step s op = some (s', r)) : Unknown s' key ∧ s.lastKey ≤ s'.lastKey := by
  cases op with
  | map id addr len acc =>
    simp only [step, Option.some.injEq, Prod.mk.injEq] at e
    obtain ⟨rfl, _⟩ := e
    refine ⟨fun i m him hmk => ?_, Nat.le_refl _⟩
    simp only [setMap] at him
    split at him
    · obtain rfl := Option.some.inj him
      exact hmk.symm
    · exact hu i m him hmk
  | get id =>
    cases hm : s.maps id with
    | none => exact absurd hm hleg
    | some m =>
      simp only [step, hm, Option.some.injEq, Prod.mk.injEq] at e
      obtain ⟨rfl, _⟩ := e
      refine ⟨fun i n him hmk => ?_, Nat.le_refl _⟩
      simp only [setMap] at him
      split at him
      · obtain rfl := Option.some.inj him
        exact hu id m hm hmk
      · exact hu i n him hmk
  | unmap id =>
    cases hm : s.maps id with
    | none => exact absurd hm hleg
    | some m =>
      have hdrop : ∀ t : Rbt KeyEnt, Unknown { s with tree := t, maps := setMap s id none } key := by
        intro t i n him hmk
        simp only [setMap] at him
        split at him
        · cases him
        · exact hu i n him hmk
      simp only [step, hm] at e
      split at e
      · cases e
      · split at e
        · simp only [Option.some.injEq, Prod.mk.injEq] at e
          obtain ⟨rfl, _⟩ := e
          refine ⟨fun i n him hmk => ?_, Nat.le_refl _⟩
          simp only [setMap] at him
          split at him
          · obtain rfl := Option.some.inj him
            exact hu id m hm hmk
          · exact hu i n him hmk
        · split at e
          · simp only [Option.some.injEq, Prod.mk.injEq] at e
            obtain ⟨rfl, _⟩ := e
            exact ⟨hdrop s.tree, Nat.le_refl _⟩
          · rename_i hk0
            obtain ⟨t, e1, _⟩ := inv_shared_unmap hi hm hk0
            simp only [e1, Option.some.injEq, Prod.mk.injEq] at e
            obtain ⟨rfl, _⟩ := e
            exact ⟨hdrop t, Nat.le_refl _⟩
  | share q id =>
    cases hm : s.maps id with
    | none => exact absurd hm hleg
    | some m =>
      by_cases hk0 : m.key = 0
      · obtain ⟨t, e1, _⟩ := inv_share hi hm hk0 hlast
        simp only [step, hm, e1, Option.some.injEq, Prod.mk.injEq] at e
        obtain ⟨rfl, _⟩ := e
        refine ⟨fun i n him hmk => ?_, by simp [shareSt]⟩
        simp only [shareSt, setMap] at him
        split at him
        · obtain rfl := Option.some.inj him
          simp only at hmk
          omega
        · exact hu i n him hmk
      · simp only [step, hm, keyAlloc, ne_eq, hk0, not_false_eq_true, if_true, Option.some.injEq,
          Prod.mk.injEq] at e
        obtain ⟨rfl, _⟩ := e
        exact ⟨hu, Nat.le_refl _⟩
  | poke b v =>
    simp only [step, Option.some.injEq, Prod.mk.injEq] at e
    obtain ⟨rfl, _⟩ := e
    exact ⟨hu, Nat.le_refl _⟩
  | readReq q key' src len =>
    simp only [step] at e
    split at e
    · cases e
    · split at e
      · simp only [Option.some.injEq, Prod.mk.injEq] at e
        obtain ⟨rfl, _⟩ := e; exact ⟨hu, Nat.le_refl _⟩
      · cases e
    · simp only [Option.some.injEq, Prod.mk.injEq] at e
      obtain ⟨rfl, _⟩ := e; exact ⟨hu, Nat.le_refl _⟩
  | writeReq q key' dst len data =>
    simp only [step] at e
    split at e
    · cases e
    · split at e
      · simp only [Option.some.injEq, Prod.mk.injEq] at e
        obtain ⟨rfl, _⟩ := e; exact ⟨hu, Nat.le_refl _⟩
      · cases e
    · simp only [Option.some.injEq, Prod.mk.injEq] at e
      obtain ⟨rfl, _⟩ := e; exact ⟨hu, Nat.le_refl _⟩

theorem unknown_run : ∀ (ops : List Op) (s : St), Inv s → Legal s ops →
    s.lastKey + shares ops < 2 ^ 31 - 1 → ∀ key, key ≤ s.lastKey → Unknown s key →
    ∀ s' rs, run s ops = some (s', rs) → Unknown s' key := by
  intro ops
  induction ops with
  | nil =>
    intro s _ _ _ key _ hu s' rs e
    simp only [run, Option.some.injEq, Prod.mk.injEq] at e
    obtain ⟨rfl, _⟩ := e
    exact hu
  | cons op ops ih =>
    intro s h hleg hsh key hk hu s' rs e
    obtain ⟨hop, hrest⟩ := hleg
    rw [shares_cons] at hsh
    simp only [run] at e
    split at e
    · cases e
    · rename_i s1 r1 e1
      split at e
      · cases e
      · rename_i s2 rs2 e2
        simp only [Option.some.injEq, Prod.mk.injEq] at e
        obtain ⟨rfl, _⟩ := e
        have h1 := inv_step h hop (by
          intro q id hid
          subst hid
          simp only [shares] at hsh
          omega) e1
        have h2 := unknown_step h hop (by omega) hk hu e1
        exact ih s1 h1.1 (hrest s1 r1 e1) (by omega) key (by omega) h2.1 s2 rs2 e2

/-- **C52 (unmapping ends access).** Once the last reference of a shared map is dropped, and for as
long as the process makes fewer than 2^31 - 2 shares in all, no request with its key reaches any
memory again, whatever is mapped and shared later: the answer is "no such map". -/
theorem unmap_ends_access {mem : Nat → Byte} {before after : List Op} {id : Nat} {s1 s2 s3 : St}
    {rs1 rs3 : List Resp} {r : Resp} {m : ZMap}
    (hleg : Legal (St.init mem) before) (e1 : run (St.init mem) before = some (s1, rs1))
    (hm : s1.maps id = some m) (hlastref : m.ref = 1) (hk : m.key ≠ 0)
    (e2 : step s1 (.unmap id) = some (s2, r)) (hleg' : Legal s2 after)
    (e3 : run s2 after = some (s3, rs3))
    (hsh : shares before + shares after < 2 ^ 31 - 2) :
    ∀ q src len, src + len < 2 ^ 64 →
      step s3 (.readReq q m.key src len) = some (s3, .reply .remoteMap []) ∧
      ∀ data, len ≤ data.length →
        step s3 (.writeReq q m.key src len data) = some (s3, .reply .remoteMap []) := by
  have hb : (St.init mem).lastKey = 1 := rfl
  obtain ⟨hi1, hl1⟩ := inv_run before _ (inv_init mem) hleg (by rw [hb]; omega) s1 rs1 e1
  rw [hb] at hl1
  have hleg2 : LegalOp s1 (.unmap id) := by simp [LegalOp, hm]
  obtain ⟨hi2, hl2⟩ := inv_step hi1 hleg2 (fun _ _ x => by cases x) e2
  simp only [shares, Nat.add_zero] at hl2
  have hkey := (hi1.live _ _ hm).2.1
  have hu : Unknown s2 m.key ∧ s2.lastKey = s1.lastKey := by
    obtain ⟨t, e4, _⟩ := inv_shared_unmap hi1 hm hk
    simp only [step, hm, hlastref, hk, e4] at e2
    simp only [Nat.sub_self, ne_eq, not_true, if_false, Nat.succ_ne_zero, Option.some.injEq,
      Prod.mk.injEq] at e2
    obtain ⟨rfl, _⟩ := e2
    refine ⟨fun i n him hmk => ?_, rfl⟩
    simp only [setMap] at him
    split at him
    · cases him
    · rename_i hne
      exact absurd (hi1.inj i id n m him hm hmk (by omega)) hne
  have hu3 := unknown_run after s2 hi2 hleg' (by omega) m.key (by omega) hu.1 s3 rs3 e3
  obtain ⟨hi3, _⟩ := inv_run after s2 hi2 hleg' (by omega) s3 rs3 e3
  have hk32 : m.key < 2 ^ 32 := by omega
  intro q src len hsz
  constructor
  · obtain ⟨st, e, _, h2, _⟩ := keyValidate_spec hi3 hk32 .read hsz
    obtain rfl := h2.2 hu3
    simp only at e
    simp only [step, e]
  · intro data _
    obtain ⟨st, e, _, h2, _⟩ := keyValidate_spec hi3 hk32 .write hsz
    obtain rfl := h2.2 hu3
    simp only at e
    simp only [step, e]

/-! ## Defects -/

/-- a legality check that can be run -/
def legalB (s : St) : List Op → Bool
  | [] => true
  | op :: ops =>
    (match op with
      | .map id addr len _ => (s.maps id).isNone && decide (addr + len < 2 ^ 64)
      | .get id | .unmap id | .share _ id => (s.maps id).isSome
      | .poke _ _ => true
      | .readReq _ key src len | .writeReq _ key src len _ =>
        decide (key < 2 ^ 32) && decide (src < 2 ^ 64) && decide (len < 2 ^ 32)) &&
    (match step s op with
      | none => true
      | some (s', _) => legalB s' ops)

theorem legalB_sound : ∀ (ops : List Op) (s : St), legalB s ops = true → Legal s ops := by
  intro ops
  induction ops with
  | nil => intro _ _; trivial
  | cons op ops ih =>
    intro s h
    simp only [legalB, Bool.and_eq_true] at h
    refine ⟨?_, fun s' r e => ih s' ?_⟩
    · cases op <;> simp_all [LegalOp, Option.isSome_iff_ne_none]
    · rw [e] at h
      exact h.2

/-- a process that maps 100 bytes at 1000 for remote reading and writing and shares them with
peer 1 -/
def sampleOps : List Op := [.map 0 1000 100 3, .share 1 0]

/-- its state -/
def sample : St := ((run (St.init fun a => a % 251) sampleOps).getD (St.init fun _ => 0, [])).1

theorem sample_run : run (St.init fun a => a % 251) sampleOps = some (sample, [.none, .shared 2]) := rfl

theorem sample_reach : Reach sample :=
  ⟨_, sampleOps, _, legalB_sound _ _ (by decide +kernel), by decide, sample_run⟩

/-- **C52 (defect: address wrap-around).** The range check adds the peer's length to the peer's
address modulo 2^64: a write request for the end of the address space passes it, although the
address is far outside the shared region, and the process performs the access. -/
theorem address_wrap_defect :
    LegalOp sample (.writeReq 1 2 (2 ^ 64 - 8) 16 (List.replicate 16 0)) ∧
    step sample (.writeReq 1 2 (2 ^ 64 - 8) 16 (List.replicate 16 0)) = none ∧
    step sample (.readReq 1 2 (2 ^ 64 - 8) 16) = none :=
  ⟨by simp [LegalOp], rfl, rfl⟩

/-- **C52 (defect: announced length).** The number of bytes stored is the one announced in the
request, not the number received: a request for 50 bytes that carries 3 makes the process read past
the received message. -/
theorem short_write_defect :
    LegalOp sample (.writeReq 1 2 1000 50 [1, 2, 3]) ∧
    step sample (.writeReq 1 2 1000 50 [1, 2, 3]) = none :=
  ⟨by simp [LegalOp], rfl⟩

/-- **C52 (defect: keys are not bound to a peer).** The region was shared with peer 1 only; peer 2
reads it by naming the key, and keys are handed out in sequence. -/
theorem other_peer_defect :
    (∀ q id, Op.share q id ∈ sampleOps → q = 1) ∧
    step sample (.readReq 2 2 1000 4) = some (sample, .reply .ok [247, 248, 249, 250]) := by
  refine ⟨?_, rfl⟩
  intro q id h
  simp [sampleOps] at h
  exact h.1

/-- the process with one map shared under key 2 after `k - 2` maps came and went -/
def churned (k : Nat) : St :=
  ⟨fun i => if i = 0 then some ⟨1000, 100, 3, 1, 2⟩ else none, k,
    ⟨.node .black .leaf ⟨2, 0⟩ .leaf, 1⟩, fun a => a % 251⟩

/-- map, share, unmap -/
def churn : List Op := [.map 1 5000 8 3, .share 1 1, .unmap 1]

theorem zcmp_ne {a b : Nat} (ha : a < 2 ^ 32) (hb : b < 2 ^ 32) (h : a ≠ b) : zcmp a b ≠ 0 :=
  fun h0 => h (zcmp_zero ha hb h0)

theorem zcmp_refl (a : Nat) : zcmp a a = 0 := by
  unfold zcmp
  simp only []
  split <;> omega

theorem churn_tree {k : Nat} (h0 : 2 < k) (h1 : k < 2 ^ 32) :
    ∃ t, Rbt.ins zcmp KeyEnt.key (churned 0).tree ⟨k, 1⟩ = some t ∧
      Rbt.find zcmp KeyEnt.key k t.root = some ⟨k, 1⟩ ∧
      Rbt.del t (⟨k, 1⟩ : KeyEnt) = some (churned 0).tree := by
  have hne := zcmp_ne (a := 2) (b := k) (by omega) h1 (by omega)
  have hr := zcmp_refl k
  by_cases hpos : 0 < zcmp 2 k
  · refine ⟨⟨.node .black (.node .red .leaf ⟨k, 1⟩ .leaf) ⟨2, 0⟩ .leaf, 2⟩, ?_, ?_, ?_⟩
    · simp [Rbt.ins, churned, Rbt.descend, hpos, Rbt.insFix, Rbt.plug, Rbt.blacken]
    · simp [Rbt.find, hpos, hne, hr]
    · simp [Rbt.del, Rbt.locate, Rbt.delNode, Rbt.delOne, Rbt.onlyChild, Rbt.replaceNode,
        Rbt.plug, churned]
  · refine ⟨⟨.node .black .leaf ⟨2, 0⟩ (.node .red .leaf ⟨k, 1⟩ .leaf), 2⟩, ?_, ?_, ?_⟩
    · simp [Rbt.ins, churned, Rbt.descend, hpos, Rbt.insFix, Rbt.plug, Rbt.blacken]
    · simp [Rbt.find, hpos, hne, hr]
    · simp [Rbt.del, Rbt.locate, Rbt.delNode, Rbt.delOne, Rbt.onlyChild, Rbt.replaceNode,
        Rbt.plug, churned]

theorem churn_step {k : Nat} (h0 : 2 ≤ k) (h1 : k + 1 < 2 ^ 32) :
    ∃ rs, run (churned k) churn = some (churned (k + 1), rs) := by
  obtain ⟨t, e1, e2, e3⟩ := churn_tree (k := k + 1) (by omega) h1
  have hmod : (k + 1) % 2 ^ 32 = k + 1 := Nat.mod_eq_of_lt h1
  have e1' : Rbt.ins zcmp KeyEnt.key (churned k).tree ⟨k + 1, 1⟩ = some t := e1
  have e4 : setMap ⟨setMap ⟨setMap (churned k) 1 (some ⟨5000, 8, 3, 1, 0⟩), k, (churned k).tree,
        (churned k).mem⟩ 1 (some ⟨5000, 8, 3, 1, k + 1⟩), k + 1, (churned k).tree, (churned k).mem⟩
        1 none = (churned (k + 1)).maps := by
    funext i
    simp only [setMap, churned]
    split
    · rename_i hi; simp [hi]
    · rfl
  refine ⟨[.none, .shared (k + 1), .none], ?_⟩
  simp only [churn, run, step]
  rw [show (setMap (churned k) 1 (some ⟨5000, 8, 3, 1, 0⟩)) 1 = some ⟨5000, 8, 3, 1, 0⟩ by
    simp [setMap]]
  simp only [keyAlloc, ne_eq, not_true, if_false]
  rw [show ((churned k).lastKey + 1) % 2 ^ 32 = k + 1 from hmod]
  simp only [Nat.succ_ne_zero, if_false, e1']
  simp only [setMap, if_true, Nat.sub_self, not_true, if_false, Nat.succ_ne_zero, keyDelete,
    keyFind, e2, e3]
  simp only [Option.some.injEq, Prod.mk.injEq, and_true]
  show St.mk _ _ _ _ = _
  rw [churned, St.mk.injEq]
  refine ⟨?_, rfl, rfl, rfl⟩
  funext i
  have := congrFun e4 i
  simp only [churned] at this ⊢
  exact this

theorem run_append : ∀ (a b : List Op) (s : St), run s (a ++ b) =
    match run s a with
    | none => none
    | some (s', rs) =>
      match run s' b with
      | none => none
      | some (s'', rs') => some (s'', rs ++ rs') := by
  intro a
  induction a with
  | nil =>
    intro b s
    simp only [List.nil_append, run]
    cases run s b with
    | none => rfl
    | some p => rfl
  | cons op a ih =>
    intro b s
    simp only [List.cons_append, run]
    cases step s op with
    | none => rfl
    | some p =>
      simp only [ih]
      cases run p.1 a with
      | none => rfl
      | some p' =>
        simp only
        cases run p'.1 b with
        | none => rfl
        | some p'' => rfl

theorem legal_append : ∀ (a b : List Op) (s : St), Legal s a →
    (∀ s' rs, run s a = some (s', rs) → Legal s' b) → Legal s (a ++ b) := by
  intro a
  induction a with
  | nil => intro b s _ h; exact h s [] rfl
  | cons op a ih =>
    intro b s h hb
    refine ⟨h.1, fun s' r e => ih b s' (h.2 s' r e) (fun s'' rs e' => ?_)⟩
    exact hb s'' (r :: rs) (by simp only [run, e, e'])

theorem churn_legal (k : Nat) : Legal (churned k) churn := by
  refine ⟨by simp [LegalOp, churned], fun s1 r1 e1 => ?_⟩
  simp only [step, Option.some.injEq, Prod.mk.injEq] at e1
  obtain ⟨rfl, _⟩ := e1
  refine ⟨by simp [LegalOp, setMap], fun s2 r2 e2 => ?_⟩
  simp only [step, setMap, if_true] at e2
  split at e2
  · cases e2
  · rename_i s3 k3 e3
    simp only [Option.some.injEq, Prod.mk.injEq] at e2
    obtain ⟨rfl, _⟩ := e2
    refine ⟨?_, fun _ _ _ => trivial⟩
    simp only [keyAlloc, ne_eq, not_true, if_false] at e3
    split at e3
    · cases e3
    · simp only [Option.some.injEq, Prod.mk.injEq] at e3
      obtain ⟨rfl, _⟩ := e3
      simp [LegalOp, setMap]

/-- `n` maps come and go -/
def churns : Nat → List Op
  | 0 => []
  | n + 1 => churn ++ churns n

theorem churns_run : ∀ (n k : Nat), 2 ≤ k → k + n < 2 ^ 32 →
    Legal (churned k) (churns n) ∧ ∃ rs, run (churned k) (churns n) = some (churned (k + n), rs) := by
  intro n
  induction n with
  | zero => intro k _ _; exact ⟨trivial, [], rfl⟩
  | succ n ih =>
    intro k h0 h1
    obtain ⟨rs, e⟩ := churn_step (k := k) h0 (by omega)
    obtain ⟨hl, rs', e'⟩ := ih (k + 1) (by omega) (by omega)
    constructor
    · refine legal_append _ _ _ (churn_legal k) (fun s' rs'' e'' => ?_)
      rw [e] at e''
      simp only [Option.some.injEq, Prod.mk.injEq] at e''
      rw [← e''.1]
      exact hl
    · refine ⟨rs ++ rs', ?_⟩
      simp only [churns, run_append, e, e']
      rw [show k + 1 + n = k + (n + 1) by omega]

/-- seven more maps are shared and kept -/
def lateShares : List Op :=
  [.map 1 2000 8 3, .share 1 1, .map 2 2100 8 3, .share 1 2, .map 3 2200 8 3, .share 1 3,
   .map 4 2300 8 3, .share 1 4, .map 5 2400 8 3, .share 1 5, .map 6 2500 8 3, .share 1 6,
   .map 7 2600 8 3, .share 1 7]

theorem key_order_aux (n : Nat) (hn31 : 2 + n = 2 ^ 31) : ∃ ops s rs, Legal (St.init fun a => a % 251) ops ∧
    AllWellFormed ops ∧
    run (St.init fun a => a % 251) ops = some (s, rs) ∧
    Exposed s 2 1000 4 .read ∧
    step s (.readReq 1 2 1000 4) = some (s, .reply .remoteMap []) := by
  obtain ⟨hl, rs, e⟩ := churns_run n 2 (by omega) (by omega)
  rw [hn31] at e
  have e0 : run (St.init fun a => a % 251) sampleOps = some (churned 2, [.none, .shared 2]) := by
    rw [sample_run]
    congr 2
    show St.mk _ _ _ _ = _
    rw [churned, St.mk.injEq]
    refine ⟨?_, rfl, rfl, rfl⟩
    funext i
    simp only [setMap, St.init]
    split <;> rfl
  have hf : ∃ s' rs', run (churned (2 ^ 31)) lateShares = some (s', rs') ∧
      s'.maps 0 = some ⟨1000, 100, 3, 1, 2⟩ ∧ keyFind s' 2 = none := by
    have hd : (run (churned (2 ^ 31)) lateShares).map (fun p => (p.1.maps 0, keyFind p.1 2)) =
        some (some ⟨1000, 100, 3, 1, 2⟩, none) := by decide +kernel
    cases hr : run (churned (2 ^ 31)) lateShares with
    | none => rw [hr] at hd; cases hd
    | some p =>
      rw [hr] at hd
      simp only [Option.map_some, Option.some.injEq, Prod.mk.injEq] at hd
      exact ⟨p.1, p.2, rfl, hd.1, hd.2⟩
  obtain ⟨s', rs', e', hm, hn⟩ := hf
  refine ⟨sampleOps ++ (churns n ++ lateShares), s',
    [.none, .shared 2] ++ (rs ++ rs'), ?_, ?_, ?_, ?_, ?_⟩
  · refine legal_append _ _ _ (legalB_sound _ _ (by decide +kernel)) (fun s1 r1 e1 => ?_)
    rw [e0] at e1
    simp only [Option.some.injEq, Prod.mk.injEq] at e1
    rw [← e1.1]
    refine legal_append _ _ _ hl (fun s2 r2 e2 => ?_)
    rw [e] at e2
    simp only [Option.some.injEq, Prod.mk.injEq] at e2
    rw [← e2.1]
    exact legalB_sound _ _ (by decide +kernel)
  · have hc : ∀ n, AllWellFormed (churns n) := by
      intro n
      induction n with
      | zero => intro op hop; cases hop
      | succ n ih =>
        intro op hop
        simp only [churns, List.mem_append] at hop
        rcases hop with hop | hop
        · simp only [churn, List.mem_cons, List.not_mem_nil, or_false] at hop
          rcases hop with rfl | rfl | rfl <;> trivial
        · exact ih op hop
    intro op hop
    simp only [List.mem_append] at hop
    rcases hop with hop | hop | hop
    · simp only [sampleOps, List.mem_cons, List.not_mem_nil, or_false] at hop
      rcases hop with rfl | rfl <;> trivial
    · exact hc _ op hop
    · simp only [lateShares, List.mem_cons, List.not_mem_nil, or_false] at hop
      rcases hop with rfl | rfl | rfl | rfl | rfl | rfl | rfl | rfl | rfl | rfl | rfl | rfl | rfl | rfl <;>
        trivial
  · simp only [run_append, e0, e, e']
  · exact ⟨0, _, hm, rfl, by decide, by decide, by decide, by decide⟩
  · simp only [step, keyValidate, hn]

/-- **C52 (defect: key order).** The comparator of the key tree subtracts 32-bit keys and looks at
the sign.  In a legal history of 2^31 + 6 shares in which the first map is kept throughout, the peer
it was shared with is told that there is no such map, although the map is live, shared under key 2
and grants reading. -/
theorem key_order_defect : ∃ ops s rs, Legal (St.init fun a => a % 251) ops ∧
    AllWellFormed ops ∧
    run (St.init fun a => a % 251) ops = some (s, rs) ∧
    Exposed s 2 1000 4 .read ∧
    step s (.readReq 1 2 1000 4) = some (s, .reply .remoteMap []) :=
  key_order_aux (2 ^ 31 - 2) (by decide)

/-! ## Concrete cases -/

example : Exposed sample 2 1000 100 .write := ⟨0, _, rfl, rfl, by decide, by decide, by decide, by decide⟩
example : (step sample (.writeReq 1 2 1010 3 [9, 8, 7])).map (fun p => (p.1.mem 1009, p.1.mem 1010, p.1.mem 1012, p.1.mem 1013, p.2))
    = some (1009 % 251, 9, 7, 1013 % 251, .reply .ok []) := by decide +kernel
example : (step sample (.writeReq 1 2 1098 3 [9, 8, 7])).map Prod.snd = some (.reply .remoteLen []) := rfl
example : (step sample (.readReq 1 3 1000 1)).map Prod.snd = some (.reply .remoteMap []) := rfl
/-- a map that grants reading only -/
example : ((run (St.init fun _ => 0) [.map 0 10 4 2, .share 1 0, .writeReq 1 2 10 1 [1]]).map Prod.snd)
    = some [.none, .shared 2, .reply .remotePermission []] := by decide +kernel
/-- sharing, unmapping and asking again -/
example : ((run (St.init fun _ => 5) [.map 0 10 4 2, .share 1 0, .get 0, .unmap 0, .readReq 1 2 10 2,
      .unmap 0, .readReq 1 2 10 2, .map 1 10 4 2, .share 1 1, .readReq 1 2 10 2]).map Prod.snd)
    = some [.none, .shared 2, .none, .none, .reply .ok [5, 5], .none, .reply .remoteMap [], .none,
        .shared 3, .reply .remoteMap []] := by decide +kernel

end Verif.ZapRdma
