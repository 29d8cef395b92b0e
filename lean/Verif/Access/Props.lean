import Verif.Access.Model

/-!
# Properties of access checks (C27)
-/

namespace Verif.Access

/-! ## specification -/

/-- the three rights -/
inductive Right where
  | read | write | exec

/-- the bit of a right within a permission class -/
def Right.bit : Right → Nat
  | .read => 2
  | .write => 1
  | .exec => 0

/-- the request flags of `ldms.h`: `LDMS_ACCESS_READ` 0444, `LDMS_ACCESS_WRITE` 0222,
`LDMS_ACCESS_EXECUTE` 0111 -/
def Right.mask : Right → Nat
  | .read => 4 * 64 + 4 * 8 + 4
  | .write => 2 * 64 + 2 * 8 + 2
  | .exec => 1 * 64 + 1 * 8 + 1

/-- the permission bits of the three classes -/
def ownerHas (perm : Nat) (r : Right) : Prop := perm.testBit (6 + r.bit) = true
def groupHas (perm : Nat) (r : Right) : Prop := perm.testBit (3 + r.bit) = true
def otherHas (perm : Nat) (r : Right) : Prop := perm.testBit r.bit = true

/-- the user belongs to the group: it is the group of the credential or one of the user's groups -/
def InGroup (groups : Groups) (agid gid : Nat) : Prop :=
  agid = gid ∨ ∃ gs, groups = some gs ∧ gid ∈ gs

/-- a user has a right on an object -/
def Permitted (groups : Groups) (auid agid ouid ogid perm : Nat) (r : Right) : Prop :=
  auid = 0 ∨ otherHas perm r ∨ (auid = ouid ∧ ownerHas perm r) ∨
    (InGroup groups agid ogid ∧ groupHas perm r)

/-! ## proofs -/

theorem and_ne_zero (a b : Nat) : a &&& b ≠ 0 ↔ ∃ i, a.testBit i = true ∧ b.testBit i = true := by
  constructor
  · intro h
    obtain ⟨i, hi⟩ := Nat.exists_testBit_of_ne_zero h
    rw [Nat.testBit_and, Bool.and_eq_true] at hi
    exact ⟨i, hi⟩
  · rintro ⟨i, h1, h2⟩ h0
    have : (a &&& b).testBit i = true := by rw [Nat.testBit_and, h1, h2]; rfl
    rw [h0, Nat.zero_testBit] at this
    cases this

theorem testBit_small (n k : Nat) (h : n < 2 ^ k) (i : Nat) (hi : k ≤ i) : n.testBit i = false :=
  Nat.testBit_lt_two_pow (Nat.lt_of_lt_of_le h (Nat.pow_le_pow_right (by omega) hi))

theorem other_bits (i : Nat) : (7 : Nat).testBit i = true ↔ i < 3 := by
  by_cases h : i < 9
  · have : ∀ i < 9, (7 : Nat).testBit i = true ↔ i < 3 := by decide
    exact this i h
  · rw [testBit_small 7 9 (by decide) i (by omega)]; simp; omega

theorem group_bits (i : Nat) : (56 : Nat).testBit i = true ↔ 3 ≤ i ∧ i < 6 := by
  by_cases h : i < 9
  · have : ∀ i < 9, (56 : Nat).testBit i = true ↔ 3 ≤ i ∧ i < 6 := by decide
    exact this i h
  · rw [testBit_small 56 9 (by decide) i (by omega)]; simp; omega

theorem owner_bits (i : Nat) : (448 : Nat).testBit i = true ↔ 6 ≤ i ∧ i < 9 := by
  by_cases h : i < 9
  · have : ∀ i < 9, (448 : Nat).testBit i = true ↔ 6 ≤ i ∧ i < 9 := by decide
    exact this i h
  · rw [testBit_small 448 9 (by decide) i (by omega)]; simp; omega

theorem mask_bits (r : Right) (i : Nat) :
    r.mask.testBit i = true ↔ i = r.bit ∨ i = 3 + r.bit ∨ i = 6 + r.bit := by
  by_cases h : i < 9
  · have : ∀ i < 9, (r.mask.testBit i = true ↔ i = r.bit ∨ i = 3 + r.bit ∨ i = 6 + r.bit) := by
      cases r <;> decide
    exact this i h
  · have hm : r.mask < 2 ^ 9 := by cases r <;> decide
    have hb : r.bit < 3 := by cases r <;> decide
    rw [testBit_small r.mask 9 hm i (by omega)]
    simp; omega

theorem uidGidCheck_iff (groups : Groups) (gid : Nat) (h : ∀ gs, groups = some gs → gs.length ≤ 128) :
    uidGidCheck groups gid = true ↔ ∃ gs, groups = some gs ∧ gid ∈ gs := by
  cases groups with
  | none => simp [uidGidCheck]
  | some gs =>
    have := h gs rfl
    rw [uidGidCheck, if_neg (by omega)]
    simp

/-- what the check grants, bit by bit: some requested bit that is permitted, in a class the user
belongs to -/
theorem check_any (groups : Groups) (auid agid acc ouid ogid perm : Nat)
    (hg : ∀ gs, groups = some gs → gs.length ≤ 128) :
    check groups auid agid acc ouid ogid perm = true ↔
      auid = 0 ∨ ∃ i, acc.testBit i = true ∧ perm.testBit i = true ∧
        (i < 3 ∨ (6 ≤ i ∧ i < 9 ∧ auid = ouid) ∨ (3 ≤ i ∧ i < 6 ∧ InGroup groups agid ogid)) := by
  have hgr : (agid = ogid ∨ uidGidCheck groups ogid = true) ↔ InGroup groups agid ogid := by
    rw [uidGidCheck_iff groups ogid hg]; rfl
  have key : ∀ m : Nat, m &&& (acc &&& perm) ≠ 0 ↔
      ∃ i, m.testBit i = true ∧ acc.testBit i = true ∧ perm.testBit i = true := by
    intro m
    rw [and_ne_zero]
    simp only [Nat.testBit_and, Bool.and_eq_true]
  have k7 := key 7
  have k448 := key 448
  have k56 := key 56
  simp only [other_bits, group_bits, owner_bits] at k7 k448 k56
  simp only [check]
  by_cases h0 : auid = 0
  · rw [if_pos h0]; simp [h0]
  rw [if_neg h0]
  by_cases h1 : 7 &&& (acc &&& perm) ≠ 0
  · rw [if_pos h1]
    obtain ⟨i, a, b, c⟩ := k7.1 h1
    simp only [true_iff]
    exact Or.inr ⟨i, b, c, Or.inl a⟩
  rw [if_neg h1]
  by_cases h2 : 448 &&& (acc &&& perm) ≠ 0 ∧ auid = ouid
  · rw [if_pos h2]
    obtain ⟨hk, d⟩ := h2
    obtain ⟨i, a, b, c⟩ := k448.1 hk
    simp only [true_iff]
    exact Or.inr ⟨i, b, c, Or.inr (Or.inl ⟨a.1, a.2, d⟩)⟩
  rw [if_neg h2]
  by_cases h3 : 56 &&& (acc &&& perm) ≠ 0 ∧ (agid = ogid ∨ uidGidCheck groups ogid = true)
  · rw [if_pos h3]
    obtain ⟨hk, d⟩ := h3
    obtain ⟨i, a, b, c⟩ := k56.1 hk
    simp only [true_iff]
    exact Or.inr ⟨i, b, c, Or.inr (Or.inr ⟨a.1, a.2, hgr.1 d⟩)⟩
  rw [if_neg h3]
  constructor
  · intro h; cases h
  · rintro (h | ⟨i, b, c, (h | ⟨h, h', d⟩ | ⟨h, h', d⟩)⟩)
    · exact absurd h h0
    · exact absurd (k7.2 ⟨i, h, b, c⟩) h1
    · exact absurd ⟨k448.2 ⟨i, ⟨h, h'⟩, b, c⟩, d⟩ h2
    · exact absurd ⟨k56.2 ⟨i, ⟨h, h'⟩, b, c⟩, hgr.2 d⟩ h3

/-- **C27.**  A request for one right is granted iff the requester is root or has that right as
owner, as a member of the group or as anyone, for every requester, object and permission mask and
every requester with at most 128 groups. -/
theorem access_right_partial (groups : Groups) (auid agid ouid ogid perm : Nat) (r : Right)
    (hg : ∀ gs, groups = some gs → gs.length ≤ 128) :
    check groups auid agid r.mask ouid ogid perm = true ↔
      Permitted groups auid agid ouid ogid perm r := by
  rw [check_any _ _ _ _ _ _ _ hg]
  have hb : r.bit < 3 := by cases r <;> decide
  simp only [Permitted, otherHas, ownerHas, groupHas]
  constructor
  · rintro (h | ⟨i, b, c, h⟩)
    · exact Or.inl h
    · rw [mask_bits] at b
      rcases b with rfl | rfl | rfl
      · exact Or.inr (Or.inl c)
      · rcases h with h | h | h
        · omega
        · omega
        · exact Or.inr (Or.inr (Or.inr ⟨h.2.2, c⟩))
      · rcases h with h | h | h
        · omega
        · exact Or.inr (Or.inr (Or.inl ⟨h.2.2, c⟩))
        · omega
  · rintro (h | h | ⟨h, c⟩ | ⟨h, c⟩)
    · exact Or.inl h
    · exact Or.inr ⟨r.bit, (mask_bits r _).2 (Or.inl rfl), h, Or.inl hb⟩
    · exact Or.inr ⟨_, (mask_bits r _).2 (Or.inr (Or.inr rfl)), c, Or.inr (Or.inl ⟨by omega, by omega, h⟩)⟩
    · exact Or.inr ⟨_, (mask_bits r _).2 (Or.inr (Or.inl rfl)), c, Or.inr (Or.inr ⟨by omega, by omega, h⟩)⟩

/-- **C27, defect.**  A request for two rights at once is granted when only one of them is held:
read and write (0666) on an object that only its owner may read (0400). -/
theorem access_two_rights_defect :
    check none 1000 1000 (Right.read.mask ||| Right.write.mask) 1000 1000 (4 * 64) = true ∧
    ¬ Permitted none 1000 1000 1000 1000 (4 * 64) .write := by
  refine ⟨by decide, ?_⟩
  rintro (h | h | ⟨_, h⟩ | ⟨_, h⟩)
  · cases h
  · cases h
  · cases h
  · cases h

/-- **C27, defect.**  A user with more than 128 groups is not treated as a member of any but the
group of the credential. -/
theorem access_many_groups_defect (gs : List Nat) (h : 128 < gs.length) (gid auid agid ouid : Nat)
    (hm : gid ∈ gs) (hu : auid ≠ 0) (hg : agid ≠ gid) :
    check (some gs) auid agid Right.read.mask ouid gid (4 * 8) = false ∧
    Permitted (some gs) auid agid ouid gid (4 * 8) .read := by
  constructor
  · simp only [check]
    rw [if_neg hu, if_neg (by decide), if_neg (by intro hh; exact absurd hh.1 (by decide)), if_neg]
    rintro ⟨_, h1 | h1⟩
    · exact hg h1
    · rw [uidGidCheck, if_pos h] at h1; cases h1
  · exact Or.inr (Or.inr (Or.inr ⟨Or.inr ⟨gs, rfl, hm⟩, rfl⟩))

/-- **C27, daemon commands.**  A command received over a transport runs only if its handler exists,
in-band configuration is enabled for it, and the peer may execute it under the permission bits of
the command, the daemon's user and group being the owner; otherwise it is refused. -/
theorem command_gate (flags : Nat → Option Nat) (n mask ruid rgid luid lgid req : Nat)
    (groups : Groups) (hg : ∀ gs, groups = some gs → gs.length ≤ 128) :
    gate flags n mask (some (ruid, rgid, groups, luid, lgid)) req = .run ↔
      req < 2147483648 ∧ req < n ∧ ∃ flag, flags req = some flag ∧ mask &&& flag ≠ 0 ∧
        Permitted groups ruid rgid luid lgid flag .exec := by
  have hp : ∀ flag, Permitted groups ruid rgid luid lgid (flag &&& 73) .exec ↔
      Permitted groups ruid rgid luid lgid flag .exec := by
    intro flag
    simp only [Permitted, otherHas, ownerHas, groupHas, Right.bit, Nat.testBit_and]
    simp [show (73 : Nat).testBit 0 = true from rfl, show (73 : Nat).testBit 6 = true from rfl,
      show (73 : Nat).testBit 3 = true from rfl]
  rw [gate]
  by_cases h : 2147483648 ≤ req ∨ n ≤ req
  · rw [if_pos h]
    constructor
    · intro hh; cases hh
    · rintro ⟨h1, h2, _⟩; omega
  · rw [if_neg h]
    cases hf : flags req with
    | none => simp
    | some flag =>
      simp only
      by_cases hm : mask &&& flag = 0
      · rw [if_pos hm]; simp [hm]
      · rw [if_neg hm]
        have hc := access_right_partial groups ruid rgid luid lgid (flag &&& 73) .exec hg
        rw [show Right.exec.mask = 73 from rfl, hp] at hc
        by_cases hx : check groups ruid rgid 73 luid lgid (flag &&& 73) = true
        · rw [if_pos hx]
          simp only [true_iff]
          exact ⟨by omega, by omega, flag, rfl, hm, hc.1 hx⟩
        · rw [if_neg hx]
          constructor
          · intro hh; cases hh
          · rintro ⟨_, _, f, h1, _, h2⟩
            injection h1 with h1; subst h1
            exact absurd (hc.2 h2) hx

/-- a group member may read an object of mode 0640, a stranger may not -/
example : check (some [5, 7]) 100 5 Right.read.mask 200 7 (6 * 64 + 4 * 8) = true ∧
    check (some [5, 8]) 100 5 Right.read.mask 200 7 (6 * 64 + 4 * 8) = false := by decide

end Verif.Access
