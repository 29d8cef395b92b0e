import Verif.JoinBuf.Model

/-!
# Properties of `ovis_join_buf` (C36)
-/

namespace Verif.JoinBuf

/-! ## specification -/

/-- the components with the separator between them -/
def joined (sep : List Nat) : List (List Nat) → List Nat
  | [] => []
  | [c] => c
  | c :: c' :: cs => c ++ (sep ++ joined sep (c' :: cs))

/-- the string at the start of a buffer -/
def cstr (mem : List Nat) : List Nat := mem.takeWhile (fun b => b != 0)

/-- a C string: no NUL inside -/
def IsStr (s : List Nat) : Prop := ∀ b ∈ s, b ≠ 0

/-! ## proofs -/

theorem store_ok {mem : List Nat} {o : Nat} {xs : List Nat} (h : o + xs.length ≤ mem.length) :
    store mem o xs = some (mem.take o ++ (xs ++ mem.drop (o + xs.length))) := if_pos h

theorem store_length {mem : List Nat} {o : Nat} {xs m : List Nat} (h : store mem o xs = some m) :
    m.length = mem.length := by
  rw [store] at h
  split at h
  · injection h with h; subst h
    simp only [List.length_append, List.length_take, List.length_drop]; omega
  · cases h

/-- `mem` holds the text `T` at its start, and there is room for a NUL -/
structure Holds (mem : List Nat) (cap : Nat) (T : List Nat) : Prop where
  len : mem.length = cap
  lt : T.length < cap
  txt : mem.take T.length = T

theorem put_holds {mem : List Nat} {cap : Nat} {T : List Nat} (h : Holds mem cap T) (xs : List Nat) :
    (T.length + xs.length < cap → ∃ m, put mem T.length xs = some (m, (T ++ xs).length, .ok) ∧
      Holds m cap (T ++ xs)) ∧
    (cap ≤ T.length + xs.length → put mem T.length xs = some (mem, T.length, .e2big)) := by
  constructor
  · intro hlt
    rw [put, if_pos (by rw [h.len]; exact hlt), store_ok (by rw [h.len]; omega)]
    refine ⟨_, by rw [List.length_append], ?_, ?_, ?_⟩
    · simp only [List.length_append, List.length_take, List.length_drop, h.len]; omega
    · rw [List.length_append]; exact hlt
    · rw [h.txt, ← List.append_assoc]; exact List.take_left' rfl
  · intro hge
    rw [put, if_neg (by rw [h.len]; omega)]

/-- what the whole text is, given what is written already -/
def rest (sep : List Nat) : List (List Nat) → List Nat
  | [] => []
  | c :: cs => sep ++ (c ++ rest sep cs)

theorem joined_rest (sep c : List Nat) : ∀ cs, joined sep (c :: cs) = c ++ rest sep cs := by
  intro cs
  induction cs generalizing c with
  | nil => simp [joined, rest]
  | cons d cs ih => rw [joined, ih, rest]

theorem loop_holds (sep : List Nat) (cap : Nat) : ∀ ns mem T, Holds mem cap T →
    ∃ m S rc, loop sep mem T.length ns = some (m, S.length, rc) ∧ Holds m cap S ∧
      (T.length + (rest sep ns).length < cap → rc = .ok ∧ S = T ++ rest sep ns) ∧
      (cap ≤ T.length + (rest sep ns).length → rc = .e2big ∧ S <+: T ++ rest sep ns) := by
  intro ns
  induction ns with
  | nil =>
    intro mem T h
    refine ⟨mem, T, .ok, rfl, h, fun _ => ⟨rfl, by simp [rest]⟩, fun hc => ?_⟩
    have := h.lt
    simp [rest] at hc; omega
  | cons n ns ih =>
    intro mem T h
    have hlen : (rest sep (n :: ns)).length = sep.length + (n.length + (rest sep ns).length) := by
      simp [rest]
    rw [loop]
    by_cases h1 : T.length + sep.length < cap
    · obtain ⟨m1, e1, H1⟩ := (put_holds h sep).1 h1
      rw [e1]
      simp only
      by_cases h2 : (T ++ sep).length + n.length < cap
      · obtain ⟨m2, e2, H2⟩ := (put_holds H1 n).1 h2
        rw [e2]
        simp only
        obtain ⟨m, S, rc, e, H, a, b⟩ := ih m2 _ H2
        have hl2 : (T ++ sep ++ n).length = T.length + sep.length + n.length := by simp; omega
        refine ⟨m, S, rc, e, H, ?_, ?_⟩
        · intro hc
          obtain ⟨x, y⟩ := a (by rw [hl2]; omega)
          exact ⟨x, by rw [y, rest]; simp⟩
        · intro hc
          obtain ⟨x, y⟩ := b (by rw [hl2]; omega)
          refine ⟨x, ?_⟩
          rw [rest]
          simpa using y
      · rw [(put_holds H1 n).2 (by omega)]
        have hl : (T ++ sep).length = T.length + sep.length := by simp
        refine ⟨m1, T ++ sep, .e2big, rfl, H1, ?_, ?_⟩
        · intro hc; omega
        · intro _
          refine ⟨rfl, ?_⟩
          rw [rest, ← List.append_assoc]
          exact List.prefix_append _ _
    · rw [(put_holds h sep).2 (by omega)]
      refine ⟨mem, T, .e2big, rfl, h, ?_, ?_⟩
      · intro hc; omega
      · intro _; exact ⟨rfl, List.prefix_append _ _⟩

theorem cstr_append (a r : List Nat) (h : IsStr a) : cstr (a ++ (0 :: r)) = a := by
  induction a with
  | nil => rfl
  | cons x a ih =>
    have hx : (x != 0) = true := by simpa using h x (List.mem_cons_self ..)
    have := ih (fun b hb => h b (List.mem_cons_of_mem _ hb))
    simp only [cstr, List.cons_append, List.takeWhile_cons, hx, if_true] at this ⊢
    rw [this]

theorem finish {mem : List Nat} {cap : Nat} {S : List Nat} (h : Holds mem cap S) (hs : IsStr S) :
    ∃ m, store mem S.length [0] = some m ∧ m.length = cap ∧ cstr m = S := by
  have hlt := h.lt
  have e := store_ok (mem := mem) (o := S.length) (xs := [0]) (by rw [h.len]; simp; omega)
  refine ⟨_, e, by rw [store_length e, h.len], ?_⟩
  rw [h.txt]
  exact cstr_append S _ hs

theorem rest_isStr (sep : List Nat) (hsep : IsStr sep) : ∀ cs : List (List Nat),
    (∀ c ∈ cs, IsStr c) → IsStr (rest sep cs) := by
  intro cs
  induction cs with
  | nil => intro _ b hb; cases hb
  | cons c cs ih =>
    intro h b hb
    rw [rest] at hb
    rcases List.mem_append.1 hb with hb | hb
    · exact hsep b hb
    · rcases List.mem_append.1 hb with hb | hb
      · exact h c (List.mem_cons_self ..) b hb
      · exact ih (fun x hx => h x (List.mem_cons_of_mem _ hx)) b hb

theorem prefix_isStr {a b : List Nat} (h : a <+: b) (hb : IsStr b) : IsStr a := by
  obtain ⟨t, rfl⟩ := h
  intro x hx; exact hb x (List.mem_append_left _ hx)

/-- **C36.**  For every buffer of at least one byte, every separator and every list of components:
nothing is written outside the buffer and it holds a terminated string afterwards.  If the joined
string and its NUL fit, the result is 0 and the string is the joined one; otherwise the result is
`E2BIG` and the string is a proper prefix of it.  Without components the result is `EINVAL` and the
string is empty. -/
theorem join_buf_complete (mem sep : List Nat) (comps : List (List Nat)) (hb : mem ≠ [])
    (hsep : IsStr sep) (hcs : ∀ c ∈ comps, IsStr c) :
    ∃ m rc, joinBuf mem sep comps = some (m, rc) ∧ m.length = mem.length ∧
      (comps = [] → rc = .einval ∧ cstr m = []) ∧
      (comps ≠ [] → (joined sep comps).length + 1 ≤ mem.length → rc = .ok ∧ cstr m = joined sep comps) ∧
      (comps ≠ [] → mem.length < (joined sep comps).length + 1 →
        rc = .e2big ∧ cstr m <+: joined sep comps ∧ (cstr m).length < (joined sep comps).length) := by
  have hpos : 0 < mem.length := List.length_pos_iff.2 hb
  obtain ⟨m0, e0⟩ : ∃ m0, store mem 0 [0] = some m0 := ⟨_, store_ok (by simp; omega)⟩
  have hm0 := store_length e0
  have H0 : Holds m0 mem.length [] := ⟨hm0, hpos, rfl⟩
  rw [joinBuf]
  simp only [e0]
  cases comps with
  | nil =>
    obtain ⟨m, e, hl, hc⟩ := finish H0 (fun b hb => by cases hb)
    rw [List.length_nil] at e
    simp only [e]
    exact ⟨m, .einval, rfl, hl, fun _ => ⟨rfl, hc⟩, fun h => absurd rfl h, fun h => absurd rfl h⟩
  | cons n ns =>
    have hj := joined_rest sep n ns
    have hstr : IsStr (joined sep (n :: ns)) := by
      rw [hj]
      intro b hb
      rcases List.mem_append.1 hb with hb | hb
      · exact hcs n (List.mem_cons_self ..) b hb
      · exact rest_isStr sep hsep ns (fun x hx => hcs x (List.mem_cons_of_mem _ hx)) b hb
    have hjl : (joined sep (n :: ns)).length = n.length + (rest sep ns).length := by rw [hj]; simp
    simp only
    by_cases h1 : ([] : List Nat).length + n.length < mem.length
    · obtain ⟨m1, e1, H1⟩ := (put_holds H0 n).1 h1
      rw [List.length_nil, List.nil_append] at e1
      rw [List.nil_append] at H1
      simp only [e1]
      obtain ⟨m, S, rc, e, H, a, b⟩ := loop_holds sep mem.length ns m1 n H1
      simp only [e]
      have hS : IsStr S := by
        by_cases hx : n.length + (rest sep ns).length < mem.length
        · rw [(a hx).2, ← hj]; exact hstr
        · exact prefix_isStr (b (by omega)).2 (by rw [← hj]; exact hstr)
      obtain ⟨m', e', hl, hc⟩ := finish H hS
      simp only [e']
      refine ⟨m', rc, rfl, hl, (fun h => by cases h), ?_, ?_⟩
      · intro _ hx
        obtain ⟨x, y⟩ := a (by omega)
        exact ⟨x, by rw [hc, y, hj]⟩
      · intro _ hx
        obtain ⟨x, y⟩ := b (by omega)
        have := H.lt
        exact ⟨x, by rw [hc, hj]; exact y, by rw [hc]; omega⟩
    · have e1 := (put_holds H0 n).2 (by omega)
      rw [List.length_nil] at e1
      simp only [e1]
      obtain ⟨m', e', hl, hc⟩ := finish H0 (fun b hb => by cases hb)
      rw [List.length_nil] at e'
      simp only [e']
      rw [List.length_nil] at h1
      refine ⟨m', .e2big, rfl, hl, (fun h => by cases h), ?_, ?_⟩
      · intro _ hx; omega
      · intro _ hx
        refine ⟨rfl, by rw [hc]; exact List.nil_prefix, ?_⟩
        rw [hc, List.length_nil]; omega

/-- **C36, defect.**  A buffer length of 0 is not refused: a byte is written outside the buffer. -/
theorem join_buf_zero_defect (sep : List Nat) (comps : List (List Nat)) :
    joinBuf [] sep comps = none := by
  rw [joinBuf]; rfl

/-- "a/bc" into 5 bytes fits; into 4 it does not -/
example : joinBuf [9, 9, 9, 9, 9] [47] [[97], [98, 99]] = some ([97, 47, 98, 99, 0], .ok) := by decide
example : joinBuf [9, 9, 9, 9] [47] [[97], [98, 99]] = some ([97, 47, 0, 9], .e2big) := by decide

end Verif.JoinBuf
