import Verif.SetOwner.Proofs

/-! # C76: who owns a sampler's set and who may read it -/

namespace Verif.SetOwner

theorem parseId_who (db : Db) (w : Who) (h : w.ok) (d : Nat) :
    (w.text.map (parseId db) = some none ↔ w.is db d = none) ∧ (∀ n, w.is db d = some n → (w.text.map (parseId db)).join.getD d = n) := by
  cases w with
  | unsaid => simp [Who.text, Who.is]
  | number n => simp [Who.text, Who.is, parseId_dec db n h]
  | name c s =>
    simp only [Who.text, Who.is, Option.map_some, parseId_name db c s h]
    refine ⟨by simp, fun n hn => by rw [hn]; rfl⟩

theorem parsePerm_is (p : Option (Nat × Nat)) (d : Nat) :
    ((permText p).map parsePerm = some none ↔ permIs d p = none) ∧ (∀ n, permIs d p = some n → ((permText p).map parsePerm).join.getD d = n) := by
  cases p with
  | none => simp [permText, permIs]
  | some q =>
    obtain ⟨z, p⟩ := q
    simp only [permText, permIs, Option.map_some, parsePerm_oct]
    split <;> simp

/-- **C76**: the set of a sampler has the owner, the group and the permissions that the configuration says, as numbers or names;
what is not said is the default. -/
theorem sampler_owner (users groups : Db) (d : Owner) (u g : Who) (p : Option (Nat × Nat)) (hu : u.ok) (hg : g.ok)
    (a b c : Nat) (ha : u.is users d.uid = some a) (hb : g.is groups d.gid = some b) (hc : permIs d.perm p = some c) :
    samplerSet users groups ⟨u.text, g.text, permText p⟩ d = some ⟨a, b, c⟩ := by
  obtain ⟨u1, u2⟩ := parseId_who users u hu d.uid
  obtain ⟨g1, g2⟩ := parseId_who groups g hg d.gid
  obtain ⟨p1, p2⟩ := parsePerm_is p d.perm
  unfold samplerSet parse
  simp only
  split
  · rename_i auth h
    split at h
    · exact nomatch h
    · split at h
      · exact nomatch h
      · split at h
        · exact nomatch h
        · cases h
          simp only [authSet, u2 a ha, g2 b hb, p2 c hc]
  · rename_i h
    split at h
    · rename_i hh; rw [u1.1 hh] at ha; exact nomatch ha
    · split at h
      · rename_i hh; rw [g1.1 hh] at hb; exact nomatch hb
      · split at h
        · rename_i hh; rw [p1.1 hh] at hc; exact nomatch hc
        · exact nomatch h

/-- **C76**: a configuration with an unknown user or group, or with permissions that are zero or more than nine bits, is
refused. -/
theorem sampler_refused (users groups : Db) (d : Owner) (u g : Who) (p : Option (Nat × Nat)) (hu : u.ok) (hg : g.ok)
    (h : u.is users d.uid = none ∨ g.is groups d.gid = none ∨ permIs d.perm p = none) :
    samplerSet users groups ⟨u.text, g.text, permText p⟩ d = none := by
  obtain ⟨u1, u2⟩ := parseId_who users u hu d.uid
  obtain ⟨g1, g2⟩ := parseId_who groups g hg d.gid
  obtain ⟨p1, p2⟩ := parsePerm_is p d.perm
  unfold samplerSet parse
  simp only
  split
  · rename_i auth he
    split at he
    · exact nomatch he
    · rename_i hh1
      split at he
      · exact nomatch he
      · rename_i hh2
        split at he
        · exact nomatch he
        · rename_i hh3
          rcases h with q | q | q
          · exact absurd (u1.2 q) hh1
          · exact absurd (g1.2 q) hh2
          · exact absurd (p1.2 q) hh3
  · rfl

/-- **C76**: so a peer may read (or write) the set if and only if the owner, the group and the permissions that were said allow
it. -/
theorem sampler_readers (users groups : Db) (d : Owner) (u g : Who) (p : Option (Nat × Nat)) (hu : u.ok) (hg : g.ok)
    (a b c : Nat) (ha : u.is users d.uid = some a) (hb : g.is groups d.gid = some b) (hc : permIs d.perm p = some c)
    (peerGroups : Access.Groups) (puid pgid : Nat) (hl : ∀ gs, peerGroups = some gs → gs.length ≤ 128) (r : Access.Right) :
    ∃ o, samplerSet users groups ⟨u.text, g.text, permText p⟩ d = some o ∧
      (Access.check peerGroups puid pgid r.mask o.uid o.gid o.perm = true ↔ Access.Permitted peerGroups puid pgid a b c r) :=
  ⟨_, sampler_owner users groups d u g p hu hg a b c ha hb hc, Access.access_right_partial peerGroups puid pgid a b c r hl⟩

/-- **C76**: a sampler without any of the attributes, before the defaults are changed: the set belongs to the daemon, and only
its user and its group (and root) may read it; nobody else may write it. -/
theorem sampler_default (users groups : Db) (euid egid : Nat) (peerGroups : Access.Groups) (puid pgid : Nat)
    (hl : ∀ gs, peerGroups = some gs → gs.length ≤ 128) :
    ∃ o, samplerSet users groups ⟨none, none, none⟩ (initial euid egid) = some o ∧
      (Access.check peerGroups puid pgid Access.Right.read.mask o.uid o.gid o.perm = true ↔
        puid = 0 ∨ puid = euid ∨ Access.InGroup peerGroups pgid egid) ∧
      (Access.check peerGroups puid pgid Access.Right.write.mask o.uid o.gid o.perm = true ↔ puid = 0) := by
  refine ⟨initial euid egid, rfl, ?_, ?_⟩
  · rw [Access.access_right_partial _ _ _ _ _ _ _ hl]
    have h1 : Nat.testBit 288 8 = true := by decide
    have h2 : Nat.testBit 288 5 = true := by decide
    have h3 : Nat.testBit 288 2 = false := by decide
    simp [Access.Permitted, Access.ownerHas, Access.groupHas, Access.otherHas, Access.Right.bit, initial, h1, h2, h3]
  · rw [Access.access_right_partial _ _ _ _ _ _ _ hl]
    have h1 : Nat.testBit 288 7 = false := by decide
    have h2 : Nat.testBit 288 4 = false := by decide
    have h3 : Nat.testBit 288 1 = false := by decide
    simp [Access.Permitted, Access.ownerHas, Access.groupHas, Access.otherHas, Access.Right.bit, initial, h1, h2, h3]

/-- a user 1000 and a name, in the group 50, may read but not write; others not -/
example : samplerSet (fun s => if s = [97, 100, 97] then some 1000 else none) (fun _ => none)
      ⟨(Who.name 97 [100, 97]).text, (Who.number 50).text, permText (some (1, 4 * 64 + 4 * 8))⟩ (initial 0 0) = some ⟨1000, 50, 288⟩ ∧
    (Who.name 97 [100, 97]).ok ∧ (Who.number 50).ok ∧ dec 50 = [53, 48] ∧ permText (some (1, 288)) = some [48, 52, 52, 48] := by
  refine ⟨by decide +kernel, .inr ⟨by omega, by omega⟩, by show 50 < 2 ^ 32; omega, by decide +kernel, by decide +kernel⟩

/-! ## The component id -/

/-- **C76**: a component id that is a number, with any text without digits before it and none after it, is that number. -/
theorem component_number (t : Str) (ht : ∀ c ∈ t, ¬ (48 ≤ c ∧ c ≤ 57)) (z n : Nat) (hn : n < 2 ^ 31) :
    componentId (some (t ++ (List.replicate z 48 ++ dec n))) = n := by
  have hs := strtol_based 10 (by omega) (by omega) z n [] (stops_nil 10)
  rw [List.append_nil, ranged_small (by omega)] at hs
  have hd : ∀ c ∈ t, (!isDigit c) = true := fun c hc => by unfold isDigit; simp; have := ht c hc; omega
  have hh : ∃ d s, List.replicate z 48 ++ numeral 10 n = (48 + d) :: s ∧ d < 10 := by
    cases z with
    | zero =>
      obtain ⟨d, s, h1, h3, _⟩ := numeral_head 10 (by omega) (by omega) n
      exact ⟨d, s, by rw [h1]; rfl, h3⟩
    | succ z => exact ⟨0, _, rfl, by omega⟩
  obtain ⟨d, s, h1, h2⟩ := hh
  have hdrop : (t ++ (List.replicate z 48 ++ dec n)).dropWhile (fun c => !isDigit c) = List.replicate z 48 ++ dec n := by
    rw [List.dropWhile_append_of_pos hd, h1]
    have : (!isDigit (48 + d)) = false := by unfold isDigit; simp; omega
    simp only [List.dropWhile_cons, this, Bool.false_eq_true, if_false]
  unfold componentId
  simp only [hdrop]
  rw [if_neg (by rw [h1]; exact nofun), hs]
  simp only [u32_small (show n < 2 ^ 32 by omega), hn, if_true]

/-- `nid00042` -/
example : componentId (some ([110, 105, 100] ++ (List.replicate 3 48 ++ dec 42))) = 42 :=
  component_number _ (by decide) 3 42 (by omega)

/-- Numbers from `2 ^ 31` on are not kept. -/
theorem component_large_defect : componentId (some (dec (2 ^ 31))) = 18446744071562067968 ∧ componentId (some (dec (2 ^ 32 + 5))) = 5 := by
  decide +kernel

/-! ## The defaults -/

/-- **C76**: the request that sets the defaults does so, for numbers that are no names, for names, and for permissions; what is not
given is kept. -/
theorem defaults_set (users groups : Db) (d : Owner) (u g : Who) (p : Option (Nat × Nat)) (hu : u.ok) (hg : g.ok)
    (hun : ∀ n, u = .number n → users (dec n) = none) (hgn : ∀ n, g = .number n → groups (dec n) = none)
    (a b : Nat) (ha : u.is users d.uid = some a) (hb : g.is groups d.gid = some b) (hp : ∀ z c, p = some (z, c) → c < 8 * 8 * 8) :
    request users groups d ⟨u.text, g.text, permText p⟩ = (⟨a, b, (p.map (·.2)).getD d.perm⟩, true) := by
  have key : ∀ (db : Db) (w : Who) (d a : Nat), w.ok → (∀ n, w = .number n → db (dec n) = none) → w.is db d = some a →
      w.text.map (requestId db) ≠ some none ∧ (w.text.map (requestId db)).join.getD d = a := by
    intro db w d a hw hn h
    cases w with
    | unsaid => cases h; exact ⟨nofun, rfl⟩
    | number n =>
      cases h
      rw [show (Who.number a).text = some (dec a) from rfl, Option.map_some, requestId_dec db a hw (hn a rfl)]
      exact ⟨nofun, rfl⟩
    | name c s =>
      have h' : db (c :: s) = some a := h
      have hr : requestId db (c :: s) = some a := by simp only [requestId, h']
      simp only [Who.text, Option.map_some, hr]
      exact ⟨nofun, rfl⟩
  obtain ⟨u1, u2⟩ := key users u d.uid a hu hun ha
  obtain ⟨g1, g2⟩ := key groups g d.gid b hg hgn hb
  have pk : (permText p).map requestPerm ≠ some none ∧ ((permText p).map requestPerm).join.getD d.perm = (p.map (·.2)).getD d.perm := by
    cases p with
    | none => exact ⟨nofun, rfl⟩
    | some q =>
      obtain ⟨z, c⟩ := q
      have hc := hp z c rfl
      simp only [permText, Option.map_some, requestPerm_oct]
      rw [if_pos (by omega), Nat.mod_eq_of_lt (by omega)]
      exact ⟨nofun, rfl⟩
  unfold request
  simp only
  rw [if_neg (fun q => q.elim u1 fun q => q.elim g1 pk.1)]
  simp only [setDefault, u2, g2, pk.2]

/-- **C76**: an unknown name, a number with anything after it, or permissions of more than nine bits (and fewer than 33) are
refused, and then no default changes, also not one that was given correctly. -/
theorem defaults_refused (users groups : Db) (d : Owner) (a : Attrs)
    (h : (∃ c s, a.uid = some (c :: s) ∧ Letter c ∧ users (c :: s) = none) ∨
      (∃ n c s, a.uid = some (dec n ++ c :: s) ∧ 0 < n ∧ ¬ (48 ≤ c ∧ c ≤ 57) ∧ users (dec n ++ c :: s) = none) ∨
      (∃ c s, a.gid = some (c :: s) ∧ Letter c ∧ groups (c :: s) = none) ∨
      (∃ n c s, a.gid = some (dec n ++ c :: s) ∧ 0 < n ∧ ¬ (48 ≤ c ∧ c ≤ 57) ∧ groups (dec n ++ c :: s) = none) ∨
      (∃ z n, a.perm = some (List.replicate z 48 ++ oct n) ∧ 8 * 8 * 8 ≤ n ∧ n < 2 ^ 32) ∨
      (∃ z n c s, a.perm = some (List.replicate z 48 ++ oct n ++ c :: s) ∧ ¬ (48 ≤ c ∧ c ≤ 55))) :
    request users groups d a = (d, false) := by
  have letter : ∀ (db : Db) c s, Letter c → db (c :: s) = none → requestId db (c :: s) = none := by
    intro db c s hc hd
    unfold requestId
    rw [hd, strtol_letter 0 (by omega) c s hc]
    simp
  have nodigit : ∀ base c, base ≤ 10 → ¬ (48 ≤ c ∧ c < 48 + base) → digit base c = none := by
    intro base c hb hc
    unfold digit isDigit
    split
    · rename_i q; simp at q; simp; omega
    · split
      · rename_i q; simp; omega
      · split
        · rename_i q; simp; omega
        · rfl
  have rest : ∀ v s, (ranged v s).rest = s := by intro v s; unfold ranged; split <;> rfl
  have garbage : ∀ (db : Db) n c s, 0 < n → ¬ (48 ≤ c ∧ c ≤ 57) → db (dec n ++ c :: s) = none → requestId db (dec n ++ c :: s) = none := by
    intro db n c s hn hc hd
    unfold requestId
    rw [hd, strtol_dec n (c :: s) (.inl hn) (fun c' s' e => by cases e; exact nodigit 10 c (by omega) (by omega))]
    simp [rest]
  unfold request
  simp only
  rw [if_pos]
  rcases h with ⟨c, s, h1, h2, h3⟩ | ⟨n, c, s, h1, h2, h3, h4⟩ | ⟨c, s, h1, h2, h3⟩ | ⟨n, c, s, h1, h2, h3, h4⟩ | ⟨z, n, h1, h2, h3⟩ | ⟨z, n, c, s, h1, h2⟩
  · left; rw [h1, Option.map_some, letter users c s h2 h3]
  · left; rw [h1, Option.map_some, garbage users n c s h2 h3 h4]
  · right; left; rw [h1, Option.map_some, letter groups c s h2 h3]
  · right; left; rw [h1, Option.map_some, garbage groups n c s h2 h3 h4]
  · right; right
    rw [h1, Option.map_some, requestPerm_oct, if_neg (by rw [Nat.mod_eq_of_lt h3]; omega)]
  · right; right
    rw [h1, Option.map_some]
    unfold requestPerm
    rw [strtol_based 8 (by omega) (by omega) z n (c :: s) (fun c' s' e => by cases e; exact nodigit 8 c (by omega) (by omega))]
    simp [rest]

/-- uid 1000, no gid, permissions 640 -/
example : request (fun _ => none) (fun _ => none) (initial 0 0) ⟨some (dec 1000), none, some (oct 416)⟩ = (⟨1000, 0, 416⟩, true) ∧
    oct 416 = [54, 52, 48] := by decide +kernel

/-- a good permission with a bad user: nothing changes -/
example : request (fun _ => none) (fun _ => none) (initial 0 0) ⟨some [97], none, some (oct 416)⟩ = (initial 0 0, false) := by decide +kernel

/-! ## Where the code is wrong -/

/-- A sampler's `uid` with an underscore first, as the names of service users, or an empty one, is taken as the number 0:
the set belongs to root. -/
theorem sampler_not_a_number_defect (db : Db) (s : Str) : parseId db (95 :: s) = some 0 ∧ parseId db [] = some 0 := by
  constructor
  · unfold parseId
    rw [if_neg (by simp [isAlpha])]
    unfold strtol
    simp [isSpace, prefixed, digit, isDigit, u32]
  · rfl

/-- A sampler's `uid` with other text after the number is taken as the number. -/
theorem sampler_trailing_defect (db : Db) (n : Nat) (h0 : 0 < n) (hn : n < 2 ^ 32) (s : Str) : parseId db (dec n ++ 97 :: s) = some n := by
  have hs := strtol_dec n (97 :: s) (.inl h0) (fun c' s' e => by cases e; rfl)
  rw [ranged_small (by omega)] at hs
  obtain ⟨d, r, h1, h3, _⟩ := numeral_head 10 (by omega) (by omega) n
  have ha : isAlpha ((dec n ++ 97 :: s).headD 0) = false := by rw [show dec n = numeral 10 n from rfl, h1]; exact alpha_digit h3
  unfold parseId
  rw [ha, hs]
  simp [u32_small hn]

/-- A number of more than 32 bits is cut, for samplers and for the defaults: `2 ^ 32` is root. -/
theorem uid_cut_defect : parseId (fun _ => none) (dec (2 ^ 32)) = some 0 ∧ requestId (fun _ => none) (dec (2 ^ 32)) = some 0 := by
  decide +kernel

/-- A sampler's `perm` that is not octal is cut where it stops to be: `7888` gives everyone, and not the owner, all rights. -/
theorem sampler_perm_cut_defect : parsePerm [55, 56, 56, 56] = some 7 := by decide +kernel

/-- The permissions of the request for the defaults are cut to 32 bits. -/
theorem defaults_perm_cut_defect : requestPerm (oct (2 ^ 32 + 416)) = some 416 := by decide +kernel

/-- Four samplers go on after a bad attribute, without those after it: permissions 400 are said, and the set has 440. -/
theorem lax_defect : laxSet (fun _ => none) (fun _ => none) ⟨some [97, 100, 97], none, some [52, 48, 48]⟩ (initial 10 20) = ⟨10, 20, 288⟩ ∧
    samplerSet (fun _ => none) (fun _ => none) ⟨some [97, 100, 97], none, some [52, 48, 48]⟩ (initial 10 20) = none := by decide +kernel

end Verif.SetOwner
