import Verif.Secret.Proofs
import Mathlib.Data.Finset.Card
import Mathlib.Data.Finset.Range

/-!
# C80: the shared secret

Which file gives the secret of a connection, what in the file is the secret, and what is exchanged of it.
-/

namespace Verif.Secret

/-! ## reading the file -/

/-- all files have lines -/
theorem lines_exist (file : Str) : ∃ ls last, Lines file ls last := by
  induction file with
  | nil => exact ⟨[], [], rfl, by simp⟩
  | cons c t ih =>
    obtain ⟨ls, last, h1, h2⟩ := ih
    by_cases hc : c = 10
    · refine ⟨[] :: ls, last, by rw [h1, hc]; simp, ?_⟩
      intro l hl
      rcases List.mem_cons.1 hl with rfl | hl
      · simp
      · exact h2 l hl
    · cases ls with
      | nil =>
        refine ⟨[], c :: last, by rw [h1]; simp, ?_⟩
        intro l hl
        rw [List.nil_append, List.mem_singleton] at hl
        subst hl
        rw [List.mem_cons, not_or]
        exact ⟨Ne.symm hc, h2 last (by simp)⟩
      | cons x xs =>
        refine ⟨(c :: x) :: xs, last, by rw [h1]; simp, ?_⟩
        intro l hl
        rcases List.mem_cons.1 hl with rfl | hl
        · rw [List.mem_cons, not_or]
          exact ⟨Ne.symm hc, h2 x (by simp)⟩
        · exact h2 l (by simp only [List.cons_append, List.mem_cons]; exact .inr hl)

theorem get_iff {fs : Fs} {p : Str} {w : Str} : getSecret fs (some p) = .ok w ↔ p.head? = some 47 ∧ (∃ mode, fs.stat p = .ok mode ∧ Private mode) ∧
    (∃ file, fs.opened p = .ok file ∧ scan file = .ok w) ∧ 8 ≤ w.length ∧ w.length ≤ 513 := by
  unfold getSecret
  dsimp only
  by_cases hp : p.head? = some 47
  · rw [if_neg (by simp [hp])]
    cases hs : fs.stat p with
    | error e => simp
    | ok mode =>
      dsimp only
      by_cases hm : mode &&& 63 = 0
      · rw [if_neg (by simp [hm])]
        have hm' := private_iff.1 hm
        cases ho : fs.opened p with
        | error e => simp
        | ok file =>
          dsimp only
          cases hc : scan file with
          | error e => simp [hc]
          | ok s =>
            dsimp only
            by_cases hl : s.length < 8 ∨ 512 + 1 < s.length
            · rw [if_pos hl]
              refine ⟨(fun h => nomatch h), ?_⟩
              rintro ⟨_, _, ⟨f, h1, h2⟩, h3, h4⟩
              injection h1 with h1
              subst h1
              rw [hc] at h2
              injection h2 with h2
              subst h2
              omega
            · rw [if_neg hl]
              constructor
              · intro h
                injection h with h
                subst h
                exact ⟨hp, ⟨mode, rfl, hm'⟩, ⟨file, rfl, hc⟩, by omega, by omega⟩
              · rintro ⟨_, _, ⟨f, h1, h2⟩, h3, h4⟩
                injection h1 with h1
                subst h1
                rw [hc] at h2
                exact h2
      · rw [if_pos hm]
        refine ⟨(fun h => nomatch h), ?_⟩
        rintro ⟨_, ⟨m, h1, h2⟩, _⟩
        injection h1 with h1
        subst h1
        exact absurd (private_iff.2 h2) hm
  · rw [if_pos hp]
    exact ⟨(fun h => nomatch h), fun h => absurd h.1 hp⟩

/-- **C80 (part).**  For all files of plain text with lines up to 526 bytes: the secret is read exactly if the path is absolute, only the owner
may use the file, and the first line that begins with `secretword=` has a word of 8 to 513 bytes; and then it is that word.  Missing: files
with longer lines or with NULs, and words of 513 bytes, which should be refused (see the defects). -/
theorem secret_iff_partial (fs : Fs) (p file : Str) (ls : List Str) (last w : Str) (hl : Lines file ls last) (hp : Plain (ls ++ [last]))
    (ho : fs.opened p = .ok file) : getSecret fs (some p) = .ok w ↔
      p.head? = some 47 ∧ (∃ mode, fs.stat p = .ok mode ∧ Private mode) ∧ (∃ l, FirstLine (ls ++ [last]) l ∧ WordOf l w) ∧ 8 ≤ w.length ∧ w.length ≤ 513 := by
  rw [get_iff, ← scan_lines ls last hl.line hp, ← hl.all]
  refine and_congr_right fun _ => and_congr_right fun _ => and_congr_left fun _ => ?_
  constructor
  · rintro ⟨f, h1, h2⟩
    rw [ho] at h1
    injection h1 with h1
    rw [h1]
    exact h2
  · exact fun h => ⟨file, ho, h⟩

/-- `# the secret`, `secretword= sesame-open # not so`, `secretword=other-word` -/
def file0 : List Str := [[35, 32, 116, 104, 101, 32, 115, 101, 99, 114, 101, 116],
  asked ++ [32] ++ [115, 101, 115, 97, 109, 101, 45, 111, 112, 101, 110] ++ [32, 35, 32, 110, 111, 116, 32, 115, 111],
  asked ++ [111, 116, 104, 101, 114, 45, 119, 111, 114, 100]]

def fs0 (mode : Nat) (file : Str) : Fs := ⟨fun _ => .ok mode, fun _ => .ok file⟩

example : Lines (file0.flatMap fun l => l ++ [10]) file0 [] ∧ Plain (file0 ++ [[]]) ∧
    getSecret (fs0 0o100600 (file0.flatMap fun l => l ++ [10])) (some [47, 97]) = .ok [115, 101, 115, 97, 109, 101, 45, 111, 112, 101, 110] ∧
    getSecret (fs0 0o100640 (file0.flatMap fun l => l ++ [10])) (some [47, 97]) = .error EINVAL ∧
    getSecret (fs0 0o100600 (file0.flatMap fun l => l ++ [10])) (some [97]) = .error EINVAL := by
  refine ⟨⟨by simp, by decide⟩, ⟨by decide, by decide⟩, ?_, by rfl, by rfl⟩
  rw [get_iff]
  refine ⟨rfl, ⟨_, rfl, private_iff.1 (by decide)⟩, ⟨_, rfl, ?_⟩, by decide, by decide⟩
  have := (scan_lines (w := [115, 101, 115, 97, 109, 101, 45, 111, 112, 101, 110]) file0 [] (by decide) ⟨by decide, by decide⟩).2
    ⟨_, ⟨[_], [_, []], rfl, by decide, by decide⟩, [32], [32, 35, 32, 110, 111, 116, 32, 115, 111], rfl, by simp [Ends], by decide,
      by simp [Ends], by simp [Ends]⟩
  simpa using this

/-- **C80.**  Whatever is in the file system: a secret comes from an absolute path whose mode, when it was looked at, gave nothing to the group and to
others; it is in the file after `secretword=`; it has 8 bytes or more, no space, tab, `#`, end of line or NUL. -/
theorem secret_protected (fs : Fs) (path : Option Str) (w : Str) (h : getSecret fs path = .ok w) :
    ∃ p, path = some p ∧ p.head? = some 47 ∧ (∃ mode, fs.stat p = .ok mode ∧ Private mode) ∧ 8 ≤ w.length ∧ w.length ≤ 513 ∧
      (∀ c ∈ w, ¬ Ends c ∧ c ≠ 0) ∧
      ∃ file x a y, fs.opened p = .ok file ∧ file = x ++ asked ++ a ++ w ++ y ∧ ∀ c ∈ a, Ends c := by
  cases path with
  | none => exact nomatch h
  | some p =>
    obtain ⟨h1, h2, ⟨file, h3, h4⟩, h5, h6⟩ := get_iff.1 h
    obtain ⟨_, g2, x, a, y, g3, g4⟩ := scan_any file.length file (Nat.le_refl _) h4
    exact ⟨p, rfl, h1, h2, h5, h6, g2, file, x, a, y, h3, g3, g4⟩

/-- **C80.**  Files with the same words are taken for the same: what follows the line with the word does not matter, nor do lines before it without
`secretword=`. -/
theorem rest_ignored (fs : Fs) (p file file' l w : Str) (before after before' after' : List Str) (last last' : Str)
    (hl : Lines file (before ++ l :: after) last) (hl' : Lines file' (before' ++ l :: after') last')
    (hp : Plain (before ++ l :: after ++ [last])) (hp' : Plain (before' ++ l :: after' ++ [last']))
    (hb : ∀ x ∈ before, ¬ asked <+: x) (hb' : ∀ x ∈ before', ¬ asked <+: x) (hk : asked <+: l) (ho : fs.opened p = .ok file) :
    getSecret fs (some p) = .ok w → getSecret { fs with opened := fun _ => .ok file' } (some p) = .ok w := by
  intro h
  rw [secret_iff_partial fs p file _ last w hl hp ho] at h
  rw [secret_iff_partial _ p file' _ last' w hl' hp' rfl]
  obtain ⟨h1, h2, ⟨m, ⟨b1, a1, e1, e2, e3⟩, hw⟩, h4⟩ := h
  refine ⟨h1, h2, ⟨l, ⟨before', after' ++ [last'], by simp, hb', hk⟩, ?_⟩, h4⟩
  have : m = l := by
    rw [List.append_assoc, List.cons_append] at e1
    clear hl hp hl' hp' ho
    induction before generalizing b1 with
    | nil =>
      cases b1 with
      | nil => injection e1 with e1 _; exact e1.symm
      | cons y t => injection e1 with e1 _; exact absurd (e1 ▸ hk) (e2 y (by simp))
    | cons x xs ih =>
      cases b1 with
      | nil => injection e1 with e1 _; exact absurd (e1 ▸ e3) (hb x (by simp))
      | cons y t =>
        injection e1 with _ e1
        exact ih (fun z hz => hb z (by simp [hz])) t e1 (fun z hz => e2 z (by simp [hz]))
  rw [← this]
  exact hw

example : Lines (file0.flatMap fun l => l ++ [10]) ([file0[0]] ++ file0[1] :: [file0[2]]) [] ∧ Lines (file0[1] ++ [10]) ([] ++ file0[1] :: []) [] ∧
    Plain ([file0[0]] ++ file0[1] :: [file0[2]] ++ [[]]) ∧ Plain ([] ++ file0[1] :: [] ++ [[]]) ∧ (∀ x ∈ [file0[0]], ¬ asked <+: x) ∧ asked <+: file0[1] :=
  ⟨⟨by simp [file0], by decide⟩, ⟨by simp, by decide⟩, ⟨by decide, by decide⟩, ⟨by decide, by decide⟩, by decide, by decide⟩

/-! ## which file -/

/-- **C80.**  A file that is named by `conf`, or if there is none by the environment, is the only one that is read: if it gives no secret
there is none, whatever the other files have. -/
theorem named_file (fs : Fs) (conf env home : Option Str) (sys c s : Str) (hc : conf = some c ∨ (conf = none ∧ env = some c)) :
    authNew fs conf env home sys = .ok s ↔ c.length < 4096 ∧ getSecret fs (some c) = .ok s := by
  have e : newPath fs conf env home sys 4096 = if 4096 ≤ c.length then .error ENAMETOOLONG else .ok c := by
    rcases hc with rfl | ⟨rfl, rfl⟩ <;> rfl
  unfold authNew
  rw [e]
  by_cases h : 4096 ≤ c.length
  · rw [if_pos h]
    exact ⟨(fun h => nomatch h), fun ⟨h1, _⟩ => by omega⟩
  · rw [if_neg h]
    exact ⟨fun g => ⟨by omega, g⟩, fun g => g.2⟩

/-- **C80.**  Without a name, the file in the directory of the user is the only one that is read if it is there. -/
theorem user_file (fs : Fs) (h sys s : Str) (mode : Nat) (he : fs.stat (h ++ newPath.userFile) = .ok mode) :
    authNew fs none none (some h) sys = .ok s ↔ (h ++ newPath.userFile).length < 4096 ∧ getSecret fs (some (h ++ newPath.userFile)) = .ok s := by
  unfold authNew newPath
  simp only [Option.orElse]
  by_cases hl : 4096 ≤ (h ++ newPath.userFile).length
  · rw [if_pos hl]
    exact ⟨(fun h => nomatch h), fun ⟨h1, _⟩ => by omega⟩
  · rw [if_neg hl, he]
    exact ⟨fun g => ⟨by omega, g⟩, fun g => g.2⟩

/-- **C80.**  The file of the system is read if there is no other. -/
theorem system_file (fs : Fs) (home : Option Str) (sys s : Str)
    (hh : ∀ h, home = some h → (h ++ newPath.userFile).length < 4096 ∧ ∃ e, fs.stat (h ++ newPath.userFile) = .error e) :
    authNew fs none none home sys = .ok s ↔ sys.length < 4096 ∧ getSecret fs (some sys) = .ok s := by
  have e : newPath fs none none home sys 4096 = newPath.last fs sys 4096 := by
    unfold newPath
    simp only [Option.orElse]
    cases home with
    | none => rfl
    | some h =>
      obtain ⟨h1, e, h2⟩ := hh h rfl
      dsimp only
      rw [if_neg (by omega), h2]
  unfold authNew
  rw [e]
  unfold newPath.last
  by_cases hl : 4096 ≤ sys.length
  · rw [if_pos hl]
    exact ⟨(fun h => nomatch h), fun ⟨h1, _⟩ => by omega⟩
  · rw [if_neg hl]
    cases hs : fs.stat sys with
    | ok m => exact ⟨fun g => ⟨by omega, g⟩, fun g => g.2⟩
    | error x =>
      refine ⟨(fun h => nomatch h), fun ⟨_, g⟩ => ?_⟩
      obtain ⟨_, ⟨m, h, _⟩, _⟩ := get_iff.1 g
      rw [hs] at h
      exact nomatch h

example : authNew (fs0 0o100600 (asked ++ [115, 101, 115, 97, 109, 101, 45, 111])) none none (some [47, 104]) [47, 101] =
    .ok [115, 101, 115, 97, 109, 101, 45, 111] := by
  unfold authNew
  have : newPath (fs0 0o100600 (asked ++ [115, 101, 115, 97, 109, 101, 45, 111])) none none (some [47, 104]) [47, 101] 4096 =
    .ok ([47, 104] ++ newPath.userFile) := by rfl
  rw [this]
  refine get_iff.2 ⟨rfl, ⟨_, rfl, private_iff.1 (by decide)⟩, ⟨_, rfl, ?_⟩, by decide, by decide⟩
  have := (scan_lines (w := [115, 101, 115, 97, 109, 101, 45, 111]) [] (asked ++ [115, 101, 115, 97, 109, 101, 45, 111]) (by decide) ⟨by decide, by decide⟩).2
    ⟨_, ⟨[], [], rfl, by decide, by decide⟩, [], [], rfl, by simp, by decide, by simp [Ends], by simp⟩
  exact this

/-! ## challenge and reply -/

/-- **C80.**  What is sent for a challenge is the same for two words only if the words are the same, or if the digest is the same for two texts. -/
theorem replies_differ (H : Str → List Nat) (hH : ∀ t, ∀ b ∈ H t, b < 256) (c : Nat) (s s' : Str) (h : encrypt H c s = encrypt H c s') :
    s = s' ∨ ∃ x y, x ≠ y ∧ H x = H y := by
  have hd : ∀ a b, a < 16 → b < 16 → hexDigit a = hexDigit b → a = b := by
    intro a b ha hb
    unfold hexDigit
    split <;> split <;> omega
  have inj : ∀ a b : List Nat, (∀ x ∈ a, x < 256) → (∀ x ∈ b, x < 256) → a.flatMap hexByte = b.flatMap hexByte → a = b := by
    intro a
    induction a with
    | nil =>
      intro b _ _ h
      cases b with
      | nil => rfl
      | cons y b => simp [hexByte] at h
    | cons x a ih =>
      intro b ha hb h
      cases b with
      | nil => simp [hexByte] at h
      | cons y b =>
        simp only [List.flatMap_cons, hexByte, List.cons_append, List.nil_append, List.cons.injEq] at h
        have hx := ha x (by simp)
        have hy := hb y (by simp)
        have h1 := hd _ _ (by omega) (by omega) h.1
        have h2 := hd _ _ (by omega) (by omega) h.2.1
        rw [ih b (fun z hz => ha z (by simp [hz])) (fun z hz => hb z (by simp [hz])) h.2.2]
        congr 1
        omega
  have e := inj _ _ (hH _) (hH _) h
  by_cases hs : s = s'
  · exact .inl hs
  · exact .inr ⟨dec c ++ s, dec c ++ s', fun h => hs (List.append_cancel_left h), e⟩

/-- **C80.**  It is text in hexadecimal, two digits for a byte. -/
theorem reply_text (H : Str → List Nat) (hH : ∀ t, ∀ b ∈ H t, b < 256) (c : Nat) (s : Str) :
    (encrypt H c s).length = 2 * (H (dec c ++ s)).length ∧ ∀ x ∈ encrypt H c s, (48 ≤ x ∧ x ≤ 57) ∨ (97 ≤ x ∧ x ≤ 102) := by
  unfold encrypt
  refine ⟨?_, ?_⟩
  · generalize H (dec c ++ s) = l
    induction l with
    | nil => rfl
    | cons b l ih => rw [List.flatMap_cons, List.length_append, ih]; simp [hexByte]; omega
  · intro x hx
    obtain ⟨b, hb, hx⟩ := List.mem_flatMap.1 hx
    have := hH _ b hb
    simp only [hexByte, List.mem_cons, List.not_mem_nil, or_false, hexDigit] at hx
    rcases hx with rfl | rfl <;> split <;> omega

/-- a digest of two bytes -/
def sum0 (t : Str) : List Nat := [t.sum / 256 % 256, t.sum % 256]
example : (∀ t, ∀ b ∈ sum0 t, b < 256) ∧ encrypt sum0 42 [97, 98] = [48, 49, 50, 57] := by
  refine ⟨?_, by simp [encrypt, sum0, dec, hexByte, hexDigit]⟩
  intro t b hb
  simp only [sum0, List.mem_cons, List.not_mem_nil, or_false] at hb
  rcases hb with rfl | rfl <;> omega

/-- **C80.**  A challenge that is packed for the network is the same when it is unpacked. -/
theorem pack_unpack (c : Nat) (h : c < 2 ^ 64) : unpack (pack c) = c := by
  have hn : ∀ n, n < 2 ^ 32 → ntoh (be32 n) = n := by
    intro n hn
    simp only [be32, ntoh]
    omega
  unfold unpack pack
  dsimp only
  rw [hn _ (Nat.mod_lt _ (by decide)), hn _ (Nat.mod_lt _ (by decide)), ← Nat.shiftLeft_add_eq_or_of_lt (Nat.mod_lt _ (by decide)), Nat.shiftLeft_eq]
  omega

/-- **C80.**  The bytes are in the order of the network: the first that is sent is the highest. -/
theorem pack_bytes (c : Nat) (h : c < 2 ^ 64) : (pack c).1.length = 4 ∧ (pack c).2.length = 4 ∧ (∀ b ∈ (pack c).1 ++ (pack c).2, b < 256) ∧
    ((pack c).1 ++ (pack c).2).foldl (fun n b => n * 256 + b) 0 = c := by
  refine ⟨rfl, rfl, ?_, ?_⟩
  · intro b hb
    simp only [pack, be32, List.cons_append, List.nil_append, List.mem_cons, List.not_mem_nil, or_false] at hb
    omega
  · simp only [pack, be32, List.cons_append, List.nil_append, List.foldl_cons, List.foldl_nil]
    omega

example : pack 0x0102030405060708 = ([1, 2, 3, 4], [5, 6, 7, 8]) := by decide

/-! ## the password of rabbit -/

theorem white_iff (c : Nat) : space c = true ↔ White c := by
  simp only [space, White, Bool.or_eq_true, Bool.and_eq_true, beq_iff_eq, decide_eq_true_eq]
  omega

theorem trim_some : ∀ (l t : Str), trim l = some t → ∃ sp, l = sp ++ t ∧ (∀ c ∈ sp, space c = true) ∧ ∃ c r, t = c :: r ∧ space c = false
  | [], t, h => nomatch h
  | c :: l, t, h => by
    rw [trim] at h
    by_cases hc : space c = true
    · rw [if_pos hc] at h
      obtain ⟨sp, h1, h2, h3⟩ := trim_some l t h
      refine ⟨c :: sp, by rw [h1]; rfl, ?_, h3⟩
      intro x hx
      rcases List.mem_cons.1 hx with rfl | hx
      · exact hc
      · exact h2 x hx
    · rw [if_neg hc] at h
      injection h with h
      exact ⟨[], h.symm ▸ rfl, by simp, c, l, h.symm, by simpa using hc⟩

theorem trim_none : ∀ l : Str, trim l = none → ∀ c ∈ l, space c = true
  | [], _, c, hc => by simp at hc
  | x :: l, h, c, hc => by
    rw [trim] at h
    split at h
    · rename_i hx
      rcases List.mem_cons.1 hc with rfl | hc
      · exact hx
      · exact trim_none l h c hc
    · exact nomatch h

/-- **C80 (part).**  For a buffer of 1 to 511 bytes and a word that is not all white space: the buffer gets the word without white space at its end,
and the NUL has room.  Missing: other words, and negative sizes (see the defects). -/
theorem rabbit_partial (fs : Fs) (file : Str) (n : Int) (w t : Str) (hn : 0 < n ∧ n < 512) (h : getSecret fs (some file) = .ok w)
    (hr : rabbit fs (some file) n = .text t) : t.length < n ∧ ∃ sp, w = t ++ sp ∧ (∀ c ∈ sp, White c) ∧
      ∃ r c, t = r ++ [c] ∧ ¬ White c := by
  unfold rabbit at hr
  dsimp only at hr
  rw [if_neg (by omega), h] at hr
  dsimp only at hr
  have hm : (n % 2 ^ 64).toNat = n.toNat := by rw [Int.emod_eq_of_lt (by omega) (by omega)]
  rw [hm] at hr
  split at hr
  · exact nomatch hr
  · rename_i hl
    rw [if_neg (by omega)] at hr
    split at hr
    · exact nomatch hr
    · rename_i u hu
      injection hr with hr
      obtain ⟨sp, h1, h2, c, r, h3, h4⟩ := trim_some _ _ hu
      have hw : w = u.reverse ++ sp.reverse := by
        have := congrArg List.reverse h1
        simpa using this
      refine ⟨?_, sp.reverse, by rw [hw, hr], fun c hc => (white_iff c).1 (h2 c (by simpa using hc)), r.reverse, c, by rw [← hr, h3]; simp,
        by rw [← white_iff, h4]; decide⟩
      have := congrArg List.length hw
      rw [← hr]
      simp only [List.length_append, List.length_reverse] at this ⊢
      omega

/-- **C80.**  It is never outside of a buffer of 1 to 511 bytes if the word is not all white space. -/
theorem rabbit_inside (fs : Fs) (file : Option Str) (n : Int) (hn : 0 ≤ n) (h : rabbit fs file n = .outside) :
    ∃ w, getSecret fs file = .ok w ∧ ∀ c ∈ w, White c := by
  unfold rabbit at h
  cases file with
  | none => exact nomatch h
  | some f =>
    dsimp only at h
    split at h
    · exact nomatch h
    · split at h
      · exact nomatch h
      · rename_i w hw
        split at h
        · exact nomatch h
        · rw [if_neg (by omega)] at h
          split at h
          · rename_i ht
            exact ⟨w, hw, fun c hc => (white_iff c).1 (trim_none _ ht c (by simpa using hc))⟩
          · exact nomatch h

/-- **C80 (part).**  All words that have room and are not all white space are given, and longer ones are refused. -/
theorem rabbit_gives_partial (fs : Fs) (file : Str) (n : Int) (w : Str) (hn : 0 < n ∧ n < 512) (h : getSecret fs (some file) = .ok w)
    (hw : ∃ c ∈ w, ¬ White c) : (w.length < n → ∃ t, rabbit fs (some file) n = .text t) ∧ (n ≤ w.length → rabbit fs (some file) n = .error EINVAL) := by
  have hm : (n % 2 ^ 64).toNat = n.toNat := by rw [Int.emod_eq_of_lt (by omega) (by omega)]
  unfold rabbit
  dsimp only
  rw [if_neg (by omega), h]
  dsimp only
  rw [hm]
  refine ⟨fun hl => ?_, fun hl => by rw [if_pos (by omega)]⟩
  rw [if_neg (by omega), if_neg (by omega)]
  cases ht : trim w.reverse with
  | none =>
    obtain ⟨c, hc, hs⟩ := hw
    exact absurd ((white_iff c).1 (trim_none _ ht c (by simpa using hc))) hs
  | some t => exact ⟨_, rfl⟩

/-- a file of one line, without an end -/
theorem get_one {l w : Str} {mode : Nat} (hm : mode &&& 63 = 0) (hk : asked <+: l) (h10 : 10 ∉ l) (h0 : 0 ∉ l) (hl : l.length ≤ 526) (hw : WordOf l w)
    (h8 : 8 ≤ w.length) (h9 : w.length ≤ 513) : getSecret (fs0 mode l) (some [47]) = .ok w := by
  refine get_iff.2 ⟨rfl, ⟨_, rfl, private_iff.1 hm⟩, ⟨_, rfl, ?_⟩, h8, h9⟩
  have := (scan_lines (w := w) [] l (by simpa using h10) ⟨by simpa using h0, by simpa using hl⟩).2 ⟨l, ⟨[], [], rfl, by simp, hk⟩, hw⟩
  simpa using this

/-- `sesame-open` and a carriage return, as in a file of another system -/
def dosWord : Str := [115, 101, 115, 97, 109, 101, 45, 111, 112, 101, 110, 13]

theorem dos_read : getSecret (fs0 0o100600 (asked ++ dosWord)) (some [47]) = .ok dosWord :=
  get_one (by decide) (by decide) (by decide) (by decide) (by decide) ⟨[], [], rfl, by simp, by decide, by simp [Ends, dosWord], by simp⟩ (by decide) (by decide)

example : rabbit (fs0 0o100600 (asked ++ dosWord)) (some [47]) 64 = .text [115, 101, 115, 97, 109, 101, 45, 111, 112, 101, 110] := by
  unfold rabbit
  dsimp only
  rw [dos_read]
  rfl

/-! ## what goes wrong -/

/-- **C80, defect.**  A word of 513 bytes is taken, although at most 512 are allowed. -/
theorem long_word_defect (w : Str) (hl : w.length = 513) (hn : ∀ c ∈ w, ¬ Ends c ∧ c ≠ 0) : getSecret (fs0 0o100600 (asked ++ w)) (some [47]) = .ok w := by
  refine get_one (by decide) (List.prefix_append _ _) ?_ ?_ (by rw [List.length_append, hl]; decide)
    ⟨[], [], by rw [List.append_nil, List.append_nil], by simp, by intro e; simp [e] at hl, fun c hc => (hn c hc).1, by simp⟩ (by omega) (by omega)
  · rw [List.mem_append, not_or]
    exact ⟨by decide, fun h => (hn 10 h).1 (.inr (.inr (.inl rfl)))⟩
  · rw [List.mem_append, not_or]
    exact ⟨by decide, fun h => (hn 0 h).2 rfl⟩

/-- the letter `a`, any number of times -/
theorem letters (n : Nat) : (List.replicate n 97).length = n ∧ ∀ c ∈ List.replicate n 97, ¬ Ends c ∧ c ≠ 0 := by
  refine ⟨List.length_replicate, fun c hc => ?_⟩
  rw [List.eq_of_mem_replicate hc]
  unfold Ends
  omega

example : (List.replicate 513 97).length = 513 ∧ ∀ c ∈ List.replicate 513 97, ¬ Ends c ∧ c ≠ 0 := letters 513

/-- **C80, defect.**  If there is nothing but a comment after `secretword=`, the comment is the secret: all daemons with the same example of a file
have `changeme`. -/
theorem comment_defect : getSecret (fs0 0o100600 (asked ++ [35, 99, 104, 97, 110, 103, 101, 109, 101])) (some [47]) = .ok [99, 104, 97, 110, 103, 101, 109, 101] :=
  get_one (by decide) (by decide) (by decide) (by decide) (by decide) ⟨[35], [], rfl, by simp [Ends], by decide, by simp [Ends], by simp⟩ (by decide) (by decide)

/-- **C80, defect.**  The word of a file with carriage returns has one at its end: it is not the word of the same file without them. -/
theorem carriage_return_defect : ∃ w, getSecret (fs0 0o100600 (asked ++ dosWord)) (some [47]) = .ok w ∧ w.getLast? = some 13 :=
  ⟨dosWord, dos_read, by decide⟩

theorem cut_long : ∀ (n : Nat) (l r : Str), l.length = n → 10 ∉ l → cut n (l ++ r) = (l, r)
  | 0, [], r, _, _ => rfl
  | n + 1, c :: l, r, h, hn => by
    rw [List.mem_cons, not_or] at hn
    simp only [List.length_cons] at h
    rw [List.cons_append, cut, if_neg (Ne.symm hn.1), cut_long n l r (by omega) hn.2]

/-- **C80, defect.**  What a comment of more than 527 bytes has from its 528th byte on is read as a line of the file. -/
theorem long_comment_defect (x rest w : Str) (hx : x.length = 526) (h10 : 10 ∉ x) :
    scan (35 :: x ++ rest) = .ok w ↔ scan rest = .ok w := by
  have e : cut 527 (35 :: x ++ rest) = (35 :: x, rest) := cut_long 527 _ _ (by simp [hx]) (by simp [h10])
  rw [List.cons_append] at e ⊢
  rw [scan_cons, e, if_neg]
  intro ⟨t, h⟩
  simp [key] at h

/-- **C80, defect.**  With 500 spaces before it, a word of 17 bytes or more is cut to 16 and taken. -/
theorem cut_word_defect (sp w : Str) (hsp : sp.length = 500 ∧ ∀ c ∈ sp, c = 32) (hw : w.length = 16) (hn : ∀ c ∈ w, ¬ Ends c ∧ c ≠ 0) (more : Str) :
    getSecret (fs0 0o100600 (asked ++ sp ++ w ++ more)) (some [47]) = .ok w := by
  have h10 : ∀ c ∈ w, c ≠ 10 := fun c hc e => (hn c hc).1 (e ▸ .inr (.inr (.inl rfl)))
  have e : cut 527 (asked ++ sp ++ w ++ more) = (asked ++ sp ++ w, more) :=
    cut_long 527 _ _ (by rw [List.length_append, List.length_append, hsp.1, hw]; rfl) (by
      simp only [List.mem_append, not_or]
      refine ⟨⟨by decide, fun h => absurd (hsp.2 10 h) (by decide)⟩, fun h => h10 10 h rfl⟩)
  refine get_iff.2 ⟨rfl, ⟨_, rfl, private_iff.1 (by decide)⟩, ⟨_, rfl, ?_⟩, by omega, by omega⟩
  have hc : ∃ c t, asked ++ sp ++ w ++ more = c :: t := ⟨_, _, rfl⟩
  obtain ⟨c, t, h⟩ := hc
  rw [h] at e ⊢
  have h0 : (asked ++ sp ++ w).takeWhile (· ≠ 0) = asked ++ sp ++ w := take_all (by
    simp only [List.mem_append, not_or]
    exact ⟨⟨by decide, fun h => absurd (hsp.2 0 h) (by decide)⟩, fun h => (hn 0 h).2 rfl⟩)
  have hk : asked <+: asked ++ sp ++ w := by rw [List.append_assoc]; exact List.prefix_append _ _
  rw [scan_cons, e, h0, key_eq, if_pos hk, taken_last hk]
  exact ⟨sp, [], by rw [List.append_nil], fun c hc => .inl (hsp.2 c hc), by intro e; simp [e] at hw, fun c hc => (hn c hc).1, by simp⟩

example : ((List.replicate 500 32).length = 500 ∧ ∀ c ∈ List.replicate 500 32, c = 32) ∧ (List.replicate 16 97).length = 16 ∧
    ∀ c ∈ List.replicate 16 97, ¬ Ends c ∧ c ≠ 0 :=
  ⟨⟨List.length_replicate, fun _ hc => List.eq_of_mem_replicate hc⟩, letters 16⟩

/-- **C80, defect.**  The mode is looked at by the path, and then the path is opened: if the file is replaced in between, the secret is that of a file whose
mode was not looked at. -/
theorem race_defect (before after : Str) (p : Str) (w : Str) (h : getSecret (fs0 0o100600 before) (some p) = .ok w) :
    ∀ w', scan after = .ok w' → 8 ≤ w'.length → w'.length ≤ 513 → getSecret { fs0 0o100600 before with opened := fun _ => .ok after } (some p) = .ok w' := by
  intro w' h1 h2 h3
  obtain ⟨g1, g2, _⟩ := get_iff.1 h
  exact get_iff.2 ⟨g1, g2, ⟨after, rfl, h1⟩, h2, h3⟩

/-- **C80, defect.**  The reply to a challenge under one word is the reply to a shorter challenge under a longer word, whatever the digest. -/
theorem concatenation_defect (H : Str → List Nat) (c d : Nat) (s : Str) (hc : 0 < c) (hd : d < 10) :
    encrypt H (10 * c + d) s = encrypt H c ((48 + d) :: s) := by
  unfold encrypt
  have : dec (10 * c + d) = dec c ++ [48 + d] := by
    rw [dec, if_neg (by omega)]
    congr 2
    · omega
    · congr 1; omega
  rw [this]
  simp

/-- **C80, defect.**  The challenge is a function of the nanoseconds of the clock: of 10^9 + 1 connections at any times two have the same
challenge, and so the same reply, whatever numbers `random_r` gives and whatever the word. -/
theorem repeat_defect (rnd : Nat → Nat × Nat) (H : Str → List Nat) (s : Str) (times : Nat → Nat) (ht : ∀ i, times i < 10 ^ 9) :
    ∃ i j, i < j ∧ j ≤ 10 ^ 9 ∧ challenge rnd (times i) = challenge rnd (times j) ∧
      encrypt H (challenge rnd (times i)) s = encrypt H (challenge rnd (times j)) s := by
  obtain ⟨i, hi, j, hj, hne, he⟩ := Finset.exists_ne_map_eq_of_card_lt_of_maps_to (s := Finset.range (10 ^ 9 + 1)) (t := Finset.range (10 ^ 9)) (f := times)
    (by rw [Finset.card_range, Finset.card_range]; omega) (fun i _ => by simpa using ht i)
  rw [Finset.mem_range] at hi hj
  rcases Nat.lt_or_gt_of_ne hne with h | h
  · exact ⟨i, j, h, by omega, by rw [he], by rw [he]⟩
  · exact ⟨j, i, h, by omega, by rw [he], by rw [he]⟩

/-- **C80, defect.**  The highest bit of a challenge is never set, as `random_r` gives 31 bits. -/
theorem challenge_bits_defect (rnd : Nat → Nat × Nat) (h : ∀ n, (rnd n).1 < 2 ^ 31 ∧ (rnd n).2 < 2 ^ 31) (n : Nat) : challenge rnd n < 2 ^ 63 := by
  unfold challenge
  refine Nat.xor_lt_two_pow ?_ (Nat.lt_trans (h n).2 (by decide))
  rw [Nat.shiftLeft_eq]
  have := (h n).1
  omega

example : ∀ n : Nat, ((fun n => (n % 7, n % 5) : Nat → Nat × Nat) n).1 < 2 ^ 31 ∧ ((fun n => (n % 7, n % 5) : Nat → Nat × Nat) n).2 < 2 ^ 31 := by
  intro n; dsimp only; omega

/-- **C80, defect.**  For a password that is all white space (carriage returns, form feeds) the byte before the buffer is read. -/
theorem rabbit_space_defect : rabbit (fs0 0o100600 (asked ++ List.replicate 8 13)) (some [47]) 64 = .outside := by
  have h : getSecret (fs0 0o100600 (asked ++ List.replicate 8 13)) (some [47]) = .ok (List.replicate 8 13) :=
    get_one (by decide) (by decide) (by decide) (by decide) (by decide) ⟨[], [], rfl, by simp, by decide, by simp [Ends], by simp⟩ (by decide) (by decide)
  unfold rabbit
  dsimp only
  rw [h]
  rfl

/-- **C80, defect.**  A negative size of the buffer is taken for a very large one: all memory after the buffer is overwritten. -/
theorem rabbit_size_defect (fs : Fs) (file w : Str) (n : Int) (hn : -(2 ^ 31) ≤ n ∧ n < 0) (h : getSecret fs (some file) = .ok w) :
    rabbit fs (some file) n = .outside := by
  have hw := (get_iff.1 h).2.2.2
  unfold rabbit
  dsimp only
  rw [if_neg (by omega), h]
  dsimp only
  rw [if_neg (by omega), if_pos (by omega)]

end Verif.Secret
