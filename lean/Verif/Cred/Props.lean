import Verif.Cred.Model

/-!
# Properties of the credential check (C33)
-/

namespace Verif.Cred

/-! ## specification -/

/-- the process has this user id -/
def HasUid (p : Proc) (u : Nat) : Prop := u = p.ruid ∨ u = p.euid ∨ u = p.suid

/-- the process has this group id -/
def HasGid (p : Proc) (g : Nat) : Prop :=
  g = p.rgid ∨ g = p.egid ∨ g = p.sgid ∨ ∃ gs, p.groups = some gs ∧ g ∈ gs

/-- the process may change its uid / gid -/
def CapUid (p : Proc) : Prop := ∃ g, p.caps = .ok (true, g)
def CapGid (p : Proc) : Prop := ∃ u, p.caps = .ok (u, true)

/-- errnos are not zero -/
def Proc.Ok (p : Proc) : Prop := ∀ e, p.caps = .error e → e ≠ 0

/-! ## proofs -/

/-- **C33.**  With an up-to-date group list, a claimed uid/gid is sent iff the process has that uid
or CAP_SETUID, and has that gid or CAP_SETGID. -/
theorem cred_accept_partial (cache : Option (List Nat)) (p : Proc) (hp : p.Ok) (u g : Nat)
    (hc : cache = none ∨ cache = p.groups) :
    (publishCred cache p (some (u, g))).1 = .ok (u, g) ↔
      (HasUid p u ∨ CapUid p) ∧ (HasGid p g ∨ CapGid p) := by
  have hgids : (getGids cache p).1 = p.groups := by
    rcases hc with h | h
    · rw [h]; rfl
    · subst h
      cases hg : p.groups <;> simp [getGids, hg]
  have hgroup : ((p.groups.getD []).contains g = true) ↔ ∃ gs, p.groups = some gs ∧ g ∈ gs := by
    cases p.groups <;> simp
  have h0 : (publishCred cache p (some (u, g))).1 = .ok (u, g) ↔ (credCheck cache p u g).1 = 0 := by
    rw [publishCred]
    cases hcc : credCheck cache p u g with
    | mk e c => cases e <;> simp
  rw [h0]
  have hg : ∀ caps : Option (Bool × Bool), (caps = none ∨ ∃ x, caps = some x ∧ p.caps = .ok x) →
      ((checkGid cache p g caps).1 = 0 ↔ HasGid p g ∨ CapGid p) := by
    intro caps hcaps
    simp only [checkGid]
    by_cases h1 : g = p.rgid ∨ g = p.egid ∨ g = p.sgid
    · rw [if_pos h1]
      simp only [true_iff]
      rcases h1 with h1 | h1 | h1
      · exact Or.inl (Or.inl h1)
      · exact Or.inl (Or.inr (Or.inl h1))
      · exact Or.inl (Or.inr (Or.inr (Or.inl h1)))
    · rw [if_neg h1, hgids]
      by_cases h2 : (p.groups.getD []).contains g = true
      · rw [if_pos h2]
        simp only [true_iff]
        exact Or.inl (Or.inr (Or.inr (Or.inr (hgroup.1 h2))))
      · rw [if_neg h2]
        have hno : ¬ HasGid p g := by
          rintro (h | h | h | h)
          · exact h1 (Or.inl h)
          · exact h1 (Or.inr (Or.inl h))
          · exact h1 (Or.inr (Or.inr h))
          · exact h2 (hgroup.2 h)
        rcases hcaps with rfl | ⟨⟨x, y⟩, rfl, hx⟩
        · cases hpc : p.caps with
          | error e =>
            simp only
            constructor
            · intro h; exact absurd h (hp e hpc)
            · rintro (h | ⟨_, h⟩)
              · exact absurd h hno
              · rw [hpc] at h; cases h
          | ok x =>
            obtain ⟨x, y⟩ := x
            cases y
            · simp only [Bool.false_eq_true, if_false, EPERM]
              constructor
              · intro h; cases h
              · rintro (h | ⟨_, h⟩)
                · exact absurd h hno
                · rw [hpc] at h; cases h
            · simp only [if_true, true_iff]; exact Or.inr ⟨x, hpc⟩
        · cases y
          · simp only [Bool.false_eq_true, if_false, EPERM]
            constructor
            · intro h; cases h
            · rintro (h | ⟨_, h⟩)
              · exact absurd h hno
              · rw [hx] at h; cases h
          · simp only [if_true, true_iff]; exact Or.inr ⟨x, hx⟩
  rw [credCheck]
  by_cases h1 : u = p.ruid ∨ u = p.euid ∨ u = p.suid
  · rw [if_pos h1, hg none (Or.inl rfl)]
    exact ⟨fun h => ⟨Or.inl h1, h⟩, fun h => h.2⟩
  · rw [if_neg h1]
    cases hpc : p.caps with
    | error e =>
      simp only
      constructor
      · intro h; exact absurd h (hp e hpc)
      · rintro ⟨h | ⟨_, h⟩, _⟩
        · exact absurd h h1
        · rw [hpc] at h; cases h
    | ok x =>
      obtain ⟨x, y⟩ := x
      cases x
      · simp only [Bool.false_eq_true, if_false, EPERM]
        constructor
        · intro h; cases h
        · rintro ⟨h | ⟨_, h⟩, _⟩
          · exact absurd h h1
          · rw [hpc] at h; cases h
      · simp only [if_true]
        rw [hg _ (Or.inr ⟨_, rfl, hpc⟩)]
        exact ⟨fun h => ⟨Or.inr ⟨y, hpc⟩, h⟩, fun h => h.2⟩

/-- **C33, refusals.**  A credential that is not sent is refused with an error: `EPERM`, or the
error of the failed capability check; nothing else is sent in its place. -/
theorem cred_refuse (cache : Option (List Nat)) (p : Proc) (u g : Nat) :
    (publishCred cache p (some (u, g))).1 = .ok (u, g) ∨
    (publishCred cache p (some (u, g))).1 = .error EPERM ∨
    ∃ e, p.caps = .error e ∧ (publishCred cache p (some (u, g))).1 = .error e := by
  have key : (credCheck cache p u g).1 = 0 ∨ (credCheck cache p u g).1 = EPERM ∨
      ∃ e, p.caps = .error e ∧ (credCheck cache p u g).1 = e := by
    have hg : ∀ caps, (checkGid cache p g caps).1 = 0 ∨ (checkGid cache p g caps).1 = EPERM ∨
        ∃ e, p.caps = .error e ∧ (checkGid cache p g caps).1 = e := by
      intro caps
      simp only [checkGid]
      split
      · exact Or.inl rfl
      · split
        · exact Or.inl rfl
        · split
          · split
            · exact Or.inl rfl
            · exact Or.inr (Or.inl rfl)
          · split
            · rename_i e he; exact Or.inr (Or.inr ⟨e, he, rfl⟩)
            · split
              · exact Or.inl rfl
              · exact Or.inr (Or.inl rfl)
    rw [credCheck]
    split
    · exact hg none
    · split
      · rename_i e he; exact Or.inr (Or.inr ⟨e, he, rfl⟩)
      · rename_i x y he
        split
        · exact hg _
        · exact Or.inr (Or.inl rfl)
  rw [publishCred]
  cases hcc : credCheck cache p u g with
  | mk e c =>
    rw [hcc] at key
    simp only at key
    cases e with
    | zero => exact Or.inl rfl
    | succ n =>
      right
      rcases key with h | h | ⟨e, h1, h2⟩
      · cases h
      · left; simp only; rw [h]
      · right; exact ⟨e, h1, by simp only; rw [h2]⟩

/-- **C33, default.**  Without a claimed credential the effective ids are sent. -/
theorem cred_default (cache : Option (List Nat)) (p : Proc) :
    (publishCred cache p none).1 = .ok (p.euid, p.egid) := rfl

/-- **C33, defect.**  The supplementary groups are read once.  A process that has dropped a group
since its first check can still publish as that group. -/
theorem stale_groups_defect :
    ∃ p q : Proc, p.Ok ∧ q.Ok ∧ ¬ HasGid q 50 ∧ ¬ CapGid q ∧
      publishes none [(p, some (1, 50)), (q, some (1, 50))] = [.ok (1, 50), .ok (1, 50)] := by
  refine ⟨⟨1, 1, 1, 9, 9, 9, some [50], .ok (false, false)⟩,
    ⟨1, 1, 1, 9, 9, 9, some [], .ok (false, false)⟩, ?_, ?_, ?_, ?_, rfl⟩
  · intro e h; cases h
  · intro e h; cases h
  · rintro (h | h | h | ⟨gs, h, h'⟩)
    · cases h
    · cases h
    · cases h
    · injection h with h; subst h; cases h'
  · rintro ⟨u, h⟩; cases h

/-- an ordinary process cannot publish as root, a process with CAP_SETUID can -/
example : (publishCred none ⟨5, 5, 5, 6, 6, 6, some [7], .ok (false, false)⟩ (some (0, 7))).1 = .error EPERM ∧
    (publishCred none ⟨5, 5, 5, 6, 6, 6, some [7], .ok (true, false)⟩ (some (0, 7))).1 = .ok (0, 7) :=
  ⟨rfl, rfl⟩

end Verif.Cred
