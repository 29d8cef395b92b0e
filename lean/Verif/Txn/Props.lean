import Verif.Txn.Model
import Verif.Timestamp.Props

/-!
# C23: transactions
-/

namespace Verif.Txn

open Verif.Timestamp (Ts duration)

/-! ## Specification: a growing list of snapshots -/

/-- values of the metrics, and the generation of the heap -/
structure Snap where
  vals : Nat → Int
  heapGn : Nat

/-- committed snapshots, the latest first (index 0); before the first transaction all are `zero` -/
structure Spec where
  hist : Nat → Snap
  /-- the snapshot being built, in a transaction -/
  work : Option Snap

/-- calls; the time of day is an input -/
inductive Op where
  | begin (now : Ts)
  | set (i : Nat) (v : Int)
  | heap (i : Nat) (v : Int)
  | end_ (now : Ts)

/-- what a new snapshot starts from: the last one if data is copied or the heap has changed, otherwise
the one of `n` transactions ago, whose buffer is reused -/
def base (n : Nat) (copy : Bool) (hist : Nat → Snap) : Snap :=
  if copy = true ∨ (hist (n - 1)).heapGn ≠ (hist 0).heapGn then hist 0 else hist (n - 1)

/-- change one value -/
def Snap.put (w : Snap) (i : Nat) (v : Int) : Snap :=
  { w with vals := fun j => if j = i then v else w.vals j }

/-- one call of a sampler that sets data metrics within transactions only -/
inductive SpecStep (S : Schema) (n : Nat) (copy : Bool) : Spec → Op → Spec → Prop
  | begin {h : Nat → Snap} (now : Ts) :
    SpecStep S n copy ⟨h, none⟩ (.begin now) ⟨h, some (base n copy h)⟩
  | set {h : Nat → Snap} {w : Snap} (i : Nat) (v : Int) : S.isData i = true →
    SpecStep S n copy ⟨h, some w⟩ (.set i v) ⟨h, some (w.put i v)⟩
  | setMeta {p : Spec} (i : Nat) (v : Int) : S.isData i = false →
    SpecStep S n copy p (.set i v) p
  | heap {h : Nat → Snap} {w : Snap} (i : Nat) (v : Int) : S.isData i = true → S.isList i = true →
    SpecStep S n copy ⟨h, some w⟩ (.heap i v) ⟨h, some { w.put i v with heapGn := w.heapGn + 1 }⟩
  | commit {h : Nat → Snap} {w : Snap} (now : Ts) :
    SpecStep S n copy ⟨h, some w⟩ (.end_ now) ⟨fun k => if k = 0 then w else h (k - 1), none⟩

/-- histories -/
inductive SpecRun (S : Schema) (n : Nat) (copy : Bool) : Spec → List Op → Spec → Prop
  | nil (p : Spec) : SpecRun S n copy p [] p
  | cons {p q r : Spec} {op : Op} {ops : List Op} : SpecStep S n copy p op q → SpecRun S n copy q ops r →
    SpecRun S n copy p (op :: ops) r

/-- before any transaction -/
def Spec.init : Spec := ⟨fun _ => ⟨fun _ => 0, 0⟩, none⟩

/-- the code -/
def step (S : Schema) (s : St) : Op → St
  | .begin now => txBegin s now
  | .set i v => metricSet S s i v
  | .heap i v => heapChange s i v
  | .end_ now => txEnd s now

/-! ## Simulation -/

/-- contents of a buffer -/
def content (b : Buf) : Snap := ⟨b.vals, b.heapGn⟩

/-- the index of the buffer used `j` transactions ago -/
def back (s : St) (j : Nat) : Nat := (s.curr + (s.n - j)) % s.n

/-- the code's state represents the snapshots.  `started` says whether there was a transaction: before
it, the flag of the buffers is not `end_`. -/
def Rel (n : Nat) (copy : Bool) (s : St) (p : Spec) : Prop :=
  s.n = n ∧ s.copy = copy ∧ s.data = s.curr ∧ s.curr < n ∧
  match p.work with
  | none => (∀ j, j < n → content (s.bufs (back s j)) = p.hist j) ∧
      ((s.bufs s.curr).flag = .end_ ∨
        ((s.bufs s.curr).flag = .none ∧ ∀ j, j < n → p.hist j = Spec.init.hist 0))
  | some w => content (s.bufs s.curr) = w ∧ (s.bufs s.curr).flag = .begin ∧
      ∀ j, j + 1 < n → content (s.bufs (back s (j + 1))) = p.hist j

theorem rel_init (n : Nat) (h : 0 < n) (copy : Bool) (gn : Nat) (off : Nat → Nat) :
    Rel n copy (init n copy gn off) Spec.init :=
  ⟨rfl, rfl, rfl, by show n - 1 < n; omega, fun _ _ => rfl, Or.inr ⟨rfl, fun _ _ => rfl⟩⟩

theorem back_zero {s : St} {n : Nat} (hn : s.n = n) (hc : s.curr < n) : back s 0 = s.curr := by
  rw [back, hn, Nat.sub_zero, Nat.add_mod_right, Nat.mod_eq_of_lt hc]

theorem back_lt {s : St} {n : Nat} (hn : s.n = n) (h : 0 < n) (j : Nat) : back s j < n := by
  rw [back, hn]; exact Nat.mod_lt _ h

theorem back_inj {c n i j : Nat} (hi : i < n) (hj : j < n)
    (h : (c + (n - i)) % n = (c + (n - j)) % n) : i = j := by
  apply Classical.byContradiction
  intro hne
  have key : ∀ a b, a < b → b < n → (c + (n - a)) % n ≠ (c + (n - b)) % n := by
    intro a b hab hb he
    have e : c + (n - a) = (c + (n - b)) + (b - a) := by omega
    rw [e] at he
    have h1 : ((c + (n - b)) + (b - a)) % n = ((c + (n - b)) % n + (b - a)) % n := (Nat.mod_add_mod _ _ _).symm
    rw [h1] at he
    have hlt := Nat.mod_lt (c + (n - b)) (show 0 < n by omega)
    generalize (c + (n - b)) % n = r at he hlt
    by_cases hr : r + (b - a) < n
    · rw [Nat.mod_eq_of_lt hr] at he; omega
    · have : (r + (b - a)) % n = r + (b - a) - n := by
        rw [Nat.mod_eq_sub_mod (by omega), Nat.mod_eq_of_lt (by omega)]
      omega
  rcases Nat.lt_or_gt_of_ne hne with h' | h'
  · exact key i j h' hj h
  · exact key j i h' hi h.symm

theorem setBuf_same (s : St) (i : Nat) (b : Buf) : (s.setBuf i b).bufs i = b := if_pos rfl
theorem setBuf_ne (s : St) {i j : Nat} (b : Buf) (h : j ≠ i) : (s.setBuf i b).bufs j = s.bufs j :=
  if_neg h

/-- the part of `ldms_transaction_begin` before the time is recorded, for at least two buffers -/
def rotate (s : St) : St :=
  let c := (s.curr + 1) % s.n
  let s' := { (s.setBuf c (copyBuf s.copy (s.bufs c) (s.bufs s.curr))) with curr := c, data := c }
  { s' with bufs := fun j => if j < s.n then { s'.bufs j with currIdx := c } else s'.bufs j }

theorem txBegin_eq (s : St) (now : Ts) (h : s.n ≠ 1) :
    txBegin s now = (rotate s).setBuf (rotate s).data
      { (rotate s).bufs (rotate s).data with flag := .begin, ts := now } := by
  simp only [txBegin, h, if_false, rotate]

theorem content_copy (copy : Bool) (dh prev : Buf) : content (copyBuf copy dh prev) =
    if copy = true ∨ dh.heapGn ≠ prev.heapGn then content prev else content dh := by
  unfold copyBuf content
  by_cases hc : copy = true
  · simp [hc]
  · by_cases hg : dh.heapGn = prev.heapGn
    · simp [hc, hg]
    · simp [hc, hg]

theorem step_rel {S : Schema} {n : Nat} {copy : Bool} (hn2 : 2 ≤ n) {s : St} {p q : Spec} {op : Op}
    (hr : Rel n copy s p) (h : SpecStep S n copy p op q) : Rel n copy (step S s op) q := by
  obtain ⟨h1, h2, h3, h4, h5⟩ := hr
  cases h with
  | @begin hist now =>
    obtain ⟨h5, h6⟩ := h5
    simp only at h5 h6
    have hne : s.n ≠ 1 := by omega
    have hcc : (s.curr + 1) % s.n < s.n := Nat.mod_lt _ (by omega)
    show Rel n copy (txBegin s now) _
    rw [txBegin_eq s now hne]
    have hcur : (rotate s).curr = (s.curr + 1) % s.n := rfl
    have hdat : (rotate s).data = (s.curr + 1) % s.n := rfl
    -- the reused buffer is the oldest
    have hold : back s (n - 1) = (s.curr + 1) % s.n := by
      rw [back, h1]; congr 2; omega
    have hne2 : (s.curr + 1) % s.n ≠ s.curr := by
      rw [h1]
      intro he
      by_cases hlt : s.curr + 1 < n
      · rw [Nat.mod_eq_of_lt hlt] at he; omega
      · have : s.curr + 1 = n := by omega
        rw [this, Nat.mod_self] at he; omega
    have hcb : content ((rotate s).bufs ((s.curr + 1) % s.n)) = base n copy hist := by
      have e : (rotate s).bufs ((s.curr + 1) % s.n) =
          { copyBuf s.copy (s.bufs ((s.curr + 1) % s.n)) (s.bufs s.curr) with
            currIdx := (s.curr + 1) % s.n } := by
        simp [rotate, hcc, St.setBuf]
      rw [e]
      have e2 : content { copyBuf s.copy (s.bufs ((s.curr + 1) % s.n)) (s.bufs s.curr) with
            currIdx := (s.curr + 1) % s.n } =
          content (copyBuf s.copy (s.bufs ((s.curr + 1) % s.n)) (s.bufs s.curr)) := rfl
      have c0 := h5 0 (by omega)
      rw [back_zero h1 h4] at c0
      have c1 := h5 (n - 1) (by omega)
      rw [hold] at c1
      rw [e2, content_copy, h2, base, ← c0, ← c1]
      rfl
    refine ⟨h1, h2, rfl, ?_, ?_, ?_, ?_⟩
    · show (s.curr + 1) % s.n < n
      omega
    · show content (((rotate s).setBuf _ _).bufs _) = _
      rw [show ((rotate s).setBuf (rotate s).data
        { (rotate s).bufs (rotate s).data with flag := .begin, ts := now }).curr = (rotate s).data from rfl,
        setBuf_same]
      exact hcb
    · rw [show ((rotate s).setBuf (rotate s).data
        { (rotate s).bufs (rotate s).data with flag := .begin, ts := now }).curr = (rotate s).data from rfl,
        setBuf_same]
    · intro j hj
      have hb : back ((rotate s).setBuf (rotate s).data
          { (rotate s).bufs (rotate s).data with flag := .begin, ts := now }) (j + 1) = back s j := by
        show (((s.curr + 1) % s.n) + (s.n - (j + 1))) % s.n = (s.curr + (s.n - j)) % s.n
        rw [Nat.mod_add_mod]; congr 1; omega
      have hbne : back s j ≠ (s.curr + 1) % s.n := by
        rw [← hold]
        intro he
        have := back_inj (c := s.curr) (n := s.n) (i := j) (j := n - 1) (by omega) (by omega) he
        omega
      rw [hb, setBuf_ne _ _ (by rw [hdat]; exact hbne)]
      have : content ((rotate s).bufs (back s j)) = content (s.bufs (back s j)) := by
        have hlt : back s j < s.n := by rw [back]; exact Nat.mod_lt _ (by omega)
        simp only [rotate, hlt, if_true, St.setBuf, hbne, if_false]
        rfl
      rw [this]
      exact h5 j (by omega)
  | @set hist w i v hd =>
    obtain ⟨h5, h6, h7⟩ := h5
    simp only at h5 h7
    simp only [step, metricSet, hd, if_true]
    refine ⟨h1, h2, h3, h4, ?_, ?_, ?_⟩
    · show content ((s.setBuf s.data _).bufs s.curr) = _
      rw [h3, setBuf_same, ← h5]; rfl
    · show ((s.setBuf s.data _).bufs s.curr).flag = _
      rw [h3, setBuf_same]; exact h6
    · intro j hj
      have hb : back s (j + 1) ≠ s.data := by
        rw [h3, ← back_zero h1 h4]
        intro he
        have := back_inj (c := s.curr) (n := s.n) (i := j + 1) (j := 0) (by omega) (by omega) he
        omega
      show content ((s.setBuf s.data _).bufs (back s (j + 1))) = _
      rw [setBuf_ne _ _ hb]; exact h7 j hj
  | setMeta i v hd =>
    simp only [step, metricSet, hd, Bool.false_eq_true, if_false]
    exact ⟨h1, h2, h3, h4, h5⟩
  | @heap hist w i v hd hl =>
    obtain ⟨h5, h6, h7⟩ := h5
    simp only at h5 h7
    simp only [step, heapChange]
    refine ⟨h1, h2, h3, h4, ?_, ?_, ?_⟩
    · show content ((s.setBuf s.data _).bufs s.curr) = _
      rw [h3, setBuf_same, ← h5]; rfl
    · show ((s.setBuf s.data _).bufs s.curr).flag = _
      rw [h3, setBuf_same]; exact h6
    · intro j hj
      have hb : back s (j + 1) ≠ s.data := by
        rw [h3, ← back_zero h1 h4]
        intro he
        have := back_inj (c := s.curr) (n := s.n) (i := j + 1) (j := 0) (by omega) (by omega) he
        omega
      show content ((s.setBuf s.data _).bufs (back s (j + 1))) = _
      rw [setBuf_ne _ _ hb]; exact h7 j hj
  | @commit hist w now =>
    obtain ⟨h5, h6, h7⟩ := h5
    simp only at h5 h7
    have hcur : (txEnd s now).bufs s.curr = { s.bufs s.curr with
        dur := duration now (s.bufs s.curr).ts, ts := now, flag := .end_,
        gn := (s.bufs s.curr).gn + 1 } := by
      simp [txEnd, St.setBuf, h3]
    have hoth : ∀ j, j ≠ s.curr → (txEnd s now).bufs j = s.bufs j := by
      intro j hj
      simp [txEnd, St.setBuf, h3, hj]
    refine ⟨h1, h2, h3, h4, ?_, ?_⟩
    · intro j hj
      show content ((txEnd s now).bufs (back s j)) = _
      cases j with
      | zero =>
        rw [back_zero h1 h4, hcur]
        simp only [if_true]
        exact h5
      | succ j =>
        have hb : back s (j + 1) ≠ s.curr := by
          conv => rhs; rw [← back_zero h1 h4]
          intro he
          have := back_inj (c := s.curr) (n := s.n) (i := j + 1) (j := 0) (by omega) (by omega) he
          omega
        rw [hoth _ hb]
        simp only [Nat.succ_ne_zero, if_false, Nat.add_sub_cancel]
        exact h7 j hj
    · left
      show ((txEnd s now).bufs s.curr).flag = _
      rw [hcur]

theorem run_rel {S : Schema} {n : Nat} {copy : Bool} (hn2 : 2 ≤ n) {p q : Spec} {ops : List Op}
    (h : SpecRun S n copy p ops q) : ∀ s, Rel n copy s p → Rel n copy (ops.foldl (step S) s) q := by
  induction h with
  | nil p => intro s hs; exact hs
  | cons h1 _ ih => intro s hs; exact ih _ (step_rel hn2 hs h1)

/-- **C23**: with at least two buffers, at every moment of every history of a sampler that writes
within transactions, a reader of a data metric that is not a list gets the value of the last committed
snapshot: during a transaction the previous one, after its end the new one.  Missing: list and record
array metrics (`list_uncommitted_defect`), metadata metrics (`meta_uncommitted_defect`) and sets with
one buffer (`single_uncommitted_defect`). -/
theorem reader_sees_committed_partial {S : Schema} {n : Nat} (hn : 2 ≤ n) {copy : Bool} (gn : Nat)
    (off : Nat → Nat) {ops : List Op} {p : Spec} (h : SpecRun S n copy Spec.init ops p)
    (i : Nat) (hd : S.isData i = true) (hl : S.isList i = false) :
    metricGet S (ops.foldl (step S) (init n copy gn off)) i = (p.hist 0).vals i := by
  have hr := run_rel hn h _ (rel_init n (by omega) copy gn off)
  generalize ops.foldl (step S) (init n copy gn off) = s at hr
  obtain ⟨h1, h2, h3, h4, h5⟩ := hr
  have hb1 : (s.curr + (s.n - 1)) % s.n = back s 1 := rfl
  cases hw : p.work with
  | none =>
    rw [hw] at h5
    obtain ⟨h5, h6⟩ := h5
    have c0 := h5 0 (by omega)
    rw [back_zero h1 h4] at c0
    have c0' : (s.bufs s.curr).vals i = (p.hist 0).vals i := congrArg (fun w => Snap.vals w i) c0
    rcases h6 with h6 | ⟨h6, h7⟩
    · simp [metricGet, hd, hl, h3, h6, c0']
    · have c1 := h5 1 (by omega)
      have c1' : (s.bufs (back s 1)).vals i = (p.hist 1).vals i := congrArg (fun w => Snap.vals w i) c1
      simp only [metricGet, hd, hl, h3, h6, hb1]
      simp only [if_true, Bool.false_eq_true, not_false_eq_true, and_true, ne_eq,
        reduceCtorEq, c1']
      rw [h7 0 (by omega), h7 1 (by omega)]
  | some w =>
    rw [hw] at h5
    obtain ⟨_, h6, h7⟩ := h5
    have c1 := h7 0 (by omega)
    have c1' : (s.bufs (back s 1)).vals i = (p.hist 0).vals i := congrArg (fun w => Snap.vals w i) c1
    simp [metricGet, hd, hl, h3, h6, hb1, c1']

/-- **C23**: the other buffers keep the history: outside a transaction, the buffer `j` places before
the current one holds the snapshot committed `j` transactions ago -/
theorem ring_keeps_history {S : Schema} {n : Nat} (hn : 2 ≤ n) {copy : Bool} (gn : Nat)
    (off : Nat → Nat) {ops : List Op} {h : Nat → Snap}
    (hr : SpecRun S n copy Spec.init ops ⟨h, none⟩) (j : Nat) (hj : j < n) :
    let s := ops.foldl (step S) (init n copy gn off)
    (s.bufs ((s.curr + (n - j)) % n)).vals = (h j).vals := by
  have hrel := run_rel hn hr _ (rel_init n (by omega) copy gn off)
  obtain ⟨h1, _, _, _, h5, _⟩ := hrel
  have := h5 j hj
  rw [back, h1] at this
  exact congrArg Snap.vals this

/-- the call is the end of a transaction -/
def Op.isEnd : Op → Bool
  | .end_ _ => true
  | _ => false

theorem run_flag {S : Schema} {n : Nat} {copy : Bool} (hn2 : 2 ≤ n) {p q : Spec} {ops : List Op}
    (h : SpecRun S n copy p ops q) : ∀ s (e : Bool), Rel n copy s p →
    (p.work = none → ((s.bufs s.curr).flag = .end_ ↔ e = true)) →
    (q.work = none → (((ops.foldl (step S) s).bufs (ops.foldl (step S) s).curr).flag = .end_ ↔
      (e || ops.any Op.isEnd) = true)) := by
  induction h with
  | nil p => intro s e _ h2; simpa using h2
  | @cons p q r op ops h1 _ ih =>
    intro s e hr hf
    have hr1 := step_rel hn2 hr h1
    have := ih (step S s op) (e || op.isEnd) hr1 (by
      intro hq
      cases h1 with
      | begin now => cases hq
      | set i v _ => cases hq
      | heap i v _ _ => cases hq
      | setMeta i v hd =>
        simp only [step, metricSet, hd, Bool.false_eq_true, if_false, Op.isEnd, Bool.or_false]
        exact hf hq
      | commit now =>
        have h3 := hr.2.2.1
        simp [step, txEnd, St.setBuf, h3, Op.isEnd])
    intro hq
    have := this hq
    simpa [Bool.or_assoc] using this

/-- **C23**: a set is consistent exactly when a transaction has been committed and none is open -/
theorem consistent_iff {S : Schema} {n : Nat} (hn : 2 ≤ n) {copy : Bool} (gn : Nat)
    (off : Nat → Nat) {ops : List Op} {p : Spec} (h : SpecRun S n copy Spec.init ops p) :
    consistent (ops.foldl (step S) (init n copy gn off)) = true ↔
      p.work = none ∧ ∃ op ∈ ops, op.isEnd = true := by
  have h0 := rel_init n (by omega) copy gn off
  have hr := run_rel hn h _ h0
  have hf := run_flag hn h _ false h0 (fun _ => by simp [init])
  generalize ops.foldl (step S) (init n copy gn off) = s at hr hf
  obtain ⟨h1, h2, h3, h4, h5⟩ := hr
  cases hw : p.work with
  | none =>
    have := hf hw
    simp only [consistent, h3, decide_eq_true_eq, true_and]
    rw [this]; simp
  | some w =>
    rw [hw] at h5
    simp [consistent, h3, h5.2.1]

/-! ### generation numbers and times: for any state, any number of buffers -/

/-- **C23**: `ldms_transaction_end` increases the data generation of the current buffer -/
theorem end_gn (s : St) (now : Ts) (h : s.data = s.curr) :
    ((txEnd s now).bufs s.curr).gn = (s.bufs s.curr).gn + 1 := by
  simp [txEnd, St.setBuf, h]

/-- **C23**: setting a metric in the data part increases the data generation of the buffer written by
one and leaves the metadata generation; setting one in the metadata part does the reverse -/
theorem set_gn (S : Schema) (s : St) (i : Nat) (v : Int) :
    ((metricSet S s i v).bufs s.data).gn = (s.bufs s.data).gn + (if S.isData i then 1 else 0) ∧
    (metricSet S s i v).metaGn = s.metaGn + (if S.isData i then 0 else 1) ∧
    ∀ j, j ≠ s.data → (metricSet S s i v).bufs j = s.bufs j := by
  by_cases h : S.isData i = true
  · simp only [metricSet, h, if_true]
    exact ⟨by rw [setBuf_same], rfl, fun j hj => setBuf_ne s _ hj⟩
  · simp only [metricSet, h]
    exact ⟨rfl, rfl, fun _ _ => rfl⟩

/-- **C23**: the generation carries over to the buffer of the next transaction -/
theorem begin_gn (s : St) (now : Ts) (h : s.data = s.curr) (hn : s.n ≠ 0) :
    ((txBegin s now).bufs (txBegin s now).data).gn = (s.bufs s.data).gn := by
  by_cases h1 : s.n = 1
  · simp [txBegin, h1, St.setBuf]
  · have hcc : (s.curr + 1) % s.n < s.n := Nat.mod_lt _ (by omega)
    rw [txBegin_eq s now h1]
    show (((rotate s).setBuf (rotate s).data _).bufs (rotate s).data).gn = _
    rw [setBuf_same]
    have : (rotate s).data = (s.curr + 1) % s.n := rfl
    rw [this]
    simp only [rotate, hcc, if_true, St.setBuf, h]
    unfold copyBuf
    by_cases hc : s.copy = true
    · simp [hc]
    · by_cases hg : (s.bufs ((s.curr + 1) % s.n)).heapGn = (s.bufs s.curr).heapGn <;> simp [hc, hg]

theorem end_duration_raw (s : St) (b e : Ts) (hd : s.data = s.curr) :
    let s1 := txBegin s b
    ((txEnd s1 e).bufs s1.curr).dur = duration e b ∧ ((txEnd s1 e).bufs s1.curr).ts = e := by
  intro s1
  have hd1 : s1.data = s1.curr := by
    by_cases h1 : s.n = 1
    · simp [s1, txBegin, h1, St.setBuf, hd]
    · simp only [s1]; rw [txBegin_eq s b h1]; rfl
  have hts : (s1.bufs s1.curr).ts = b := by
    rw [← hd1]
    simp [s1, txBegin, St.setBuf]
  constructor
  · simp [txEnd, St.setBuf, hd1, hts]
  · simp [txEnd, St.setBuf, hd1]

/-- **C23**: the duration recorded for a transaction is its end minus its begin, in microseconds, and
its timestamp is the time of its end -/
theorem end_duration (s : St) (b e : Ts) (hd : s.data = s.curr) (hb : b.Ok) (he : e.Ok)
    (h : b.us ≤ e.us) :
    let s1 := txBegin s b
    ((txEnd s1 e).bufs s1.curr).dur.us = e.us - b.us ∧ ((txEnd s1 e).bufs s1.curr).ts = e := by
  intro s1
  obtain ⟨h1, h2⟩ := end_duration_raw s b e hd
  exact ⟨by rw [h1]; exact (Verif.Timestamp.duration_exact e b he hb h).1, h2⟩

/-! ### examples and defects -/

/-- metrics 0 and 1 are data, 2 is a list, 3 is metadata -/
def S0 : Schema := ⟨fun i => i ≠ 3, fun i => i = 2⟩

/-- a transaction, and a second one that is not finished -/
def ops0 : List Op := [.begin ⟨1, 0⟩, .set 0 5, .set 1 6, .end_ ⟨1, 9⟩, .begin ⟨2, 0⟩, .set 0 7]

example : ∃ p, SpecRun S0 3 true Spec.init ops0 p ∧ p.work ≠ none := by
  refine ⟨_, .cons (.begin _) (.cons (.set _ _ rfl) (.cons (.set _ _ rfl) (.cons (.commit _)
    (.cons (.begin _) (.cons (.set _ _ rfl) (.nil _)))))), by simp⟩

example : metricGet S0 (ops0.foldl (step S0) (init 3 true 1 id)) 0 = 5 ∧
    metricGet S0 ((ops0 ++ [Op.end_ ⟨2, 3⟩]).foldl (step S0) (init 3 true 1 id)) 0 = 7 ∧
    metricGet S0 ((ops0 ++ [Op.end_ ⟨2, 3⟩]).foldl (step S0) (init 3 true 1 id)) 1 = 6 := by decide

/-- **C23, defect**: without the data copy flag a metric that is not set in a transaction does not keep
its value: the reader gets the value of `n` transactions ago -/
theorem unset_metric_reverts_defect :
    metricGet S0 ([.begin ⟨1, 0⟩, .set 0 5, .end_ ⟨1, 9⟩, .begin ⟨2, 0⟩, .set 1 7, .end_ ⟨2, 9⟩].foldl
      (step S0) (init 3 false 1 id)) 0 = 0 := by decide

/-- **C23, defect**: list metrics show uncommitted contents -/
theorem list_uncommitted_defect :
    metricGet S0 ([.begin ⟨1, 0⟩, .set 2 5, .end_ ⟨1, 9⟩, .begin ⟨2, 0⟩, .heap 2 7].foldl
      (step S0) (init 3 true 1 id)) 2 = 7 := by decide

/-- **C23, defect**: metadata metrics show uncommitted values -/
theorem meta_uncommitted_defect :
    metricGet S0 ([.begin ⟨1, 0⟩, .set 3 5].foldl (step S0) (init 3 true 1 id)) 3 = 5 := by decide

/-- **C23, defect**: a set with a single buffer shows uncommitted values -/
theorem single_uncommitted_defect :
    metricGet S0 ([.begin ⟨1, 0⟩, .set 0 5, .end_ ⟨1, 9⟩, .begin ⟨2, 0⟩, .set 0 7].foldl
      (step S0) (init 1 true 1 id)) 0 = 7 := by decide

end Verif.Txn
