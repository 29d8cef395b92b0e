import Verif.ReqAttr.Model

/-!
# Properties of request attributes (C20, C43)
-/

namespace Verif.ReqAttr

open Verif

/-! ## words -/

theorem rev_beBytes : ∀ k n, (beBytes k n).reverse = leBytes k n := by
  intro k
  induction k with
  | zero => intro n; rfl
  | succ k ih => intro n; simp [beBytes, leBytes, ih]

theorem rev_leBytes (k n : Nat) : (leBytes k n).reverse = beBytes k n := by
  rw [← rev_beBytes, List.reverse_reverse]

theorem leVal_leBytes (k n : Nat) (h : n < 256 ^ k) : leVal (leBytes k n) = n := by
  rw [leVal, rev_leBytes, beVal_beBytes k n h]

/-- the bytes of a word are the bytes of its value -/
theorem beBytes_beVal : ∀ k l, l.length = k → (∀ b ∈ l, b < 256) → beBytes k (beVal l) = l := by
  intro k
  induction k with
  | zero => intro l hl _; rw [List.length_eq_zero_iff.1 hl]; rfl
  | succ k ih =>
    intro l hl hb
    have hne : l ≠ [] := by intro h; rw [h] at hl; cases hl
    rw [← List.dropLast_concat_getLast hne] at hb hl ⊢
    generalize l.dropLast = i at *
    generalize l.getLast hne = x at *
    have hx : x < 256 := hb x (by simp)
    rw [beVal_append, beBytes, show (beVal i * 256 + x) / 256 = beVal i from by omega,
      show (beVal i * 256 + x) % 256 = x from by omega, ih i (by simpa using hl)
        (fun b h => hb b (by simp [h]))]

theorem beVal_lt : ∀ l : List Nat, (∀ b ∈ l, b < 256) → beVal l < 256 ^ l.length := by
  intro l
  induction h : l.length generalizing l with
  | zero => intro _; rw [List.length_eq_zero_iff.1 h]; decide
  | succ k ih =>
    intro hb
    have hne : l ≠ [] := by intro h'; rw [h'] at h; cases h
    rw [← List.dropLast_concat_getLast hne] at hb h ⊢
    generalize l.dropLast = i at *
    generalize l.getLast hne = x at *
    have hx : x < 256 := hb x (by simp)
    have := ih i (by simpa using h) (fun b h => hb b (by simp [h]))
    rw [beVal_append, Nat.pow_succ]
    omega

theorem rd4_at (p w r : List Nat) (n : Nat) (hp : p.length = n) (hw : w.length = 4) :
    rd4 (p ++ (w ++ r)) n = some w := by
  subst hp
  rw [rd4, if_pos (by simp only [List.length_append]; omega), List.drop_left,
    List.take_left' hw]

theorem rd4_spec {s o w} (h : rd4 s o = some w) :
    w.length = 4 ∧ s.drop o = w ++ s.drop (o + 4) := by
  rw [rd4] at h
  split at h
  · injection h with h; subst h
    constructor
    · simp only [List.length_take, List.length_drop]; omega
    · rw [← List.drop_drop]; exact (List.take_append_drop 4 _).symm
  · cases h

/-- three words at the start of a buffer -/
theorem rd4_three {s d i l} (h0 : rd4 s 0 = some d) (h1 : rd4 s 4 = some i)
    (h2 : rd4 s 8 = some l) :
    d.length = 4 ∧ i.length = 4 ∧ l.length = 4 ∧ s = d ++ (i ++ (l ++ s.drop 12)) := by
  obtain ⟨a, b⟩ := rd4_spec h0
  obtain ⟨c, e⟩ := rd4_spec h1
  obtain ⟨f, g⟩ := rd4_spec h2
  refine ⟨a, c, f, ?_⟩
  rw [List.drop_zero] at b
  rw [b] at *
  rw [← g, ← e]
  simpa using b

/-! ## specification: attributes in a message -/

/-- one attribute of a message: its discriminator and id words in network order, its value -/
structure Raw where
  disc : List Nat
  id : List Nat
  val : List Nat

/-- the words have four bytes, the discriminator is not zero, the length fits in its word -/
def Raw.ok (a : Raw) : Prop :=
  a.disc.length = 4 ∧ a.disc ≠ zero4 ∧ a.id.length = 4 ∧ a.val.length < 256 ^ 4

/-- the attribute in network order -/
def Raw.net (a : Raw) : List Nat := a.disc ++ (a.id ++ (beBytes 4 a.val.length ++ a.val))

/-- the attribute in host order -/
def Raw.host (a : Raw) : List Nat :=
  a.disc.reverse ++ (a.id.reverse ++ (leBytes 4 a.val.length ++ a.val))

/-- a list of attributes in network order, the terminator, and whatever follows it -/
def netBody (as : List Raw) (tail : List Nat) : List Nat :=
  (as.map Raw.net).flatten ++ (zero4 ++ tail)

/-- the same in host order -/
def hostBody (as : List Raw) (tail : List Nat) : List Nat :=
  (as.map Raw.host).flatten ++ (zero4 ++ tail)

/-- what a look-up by id must give: the value of the first attribute with that id -/
def firstWithId (id : Nat) : List Raw → Option (List Nat)
  | [] => none
  | a :: as => if beVal a.id = id then some a.val else firstWithId id as

/-! ## look-up -/

theorem reverse_ne_zero4 {d : List Nat} (h : d ≠ zero4) : d.reverse ≠ zero4 := by
  intro e
  apply h
  rw [← List.reverse_reverse d, e]; rfl

theorem Raw.host_parts {a : Raw} (h : a.ok) (r : List Nat) :
    rd4 (a.host ++ r) 0 = some a.disc.reverse ∧ rd4 (a.host ++ r) 4 = some a.id.reverse ∧
      rd4 (a.host ++ r) 8 = some (leBytes 4 a.val.length) ∧ (a.host ++ r).drop 12 = a.val ++ r ∧
      (a.host ++ r).length = 12 + a.val.length + r.length := by
  obtain ⟨h1, h2, h3, h4⟩ := h
  have e : a.host ++ r = a.disc.reverse ++ (a.id.reverse ++ (leBytes 4 a.val.length ++ (a.val ++ r))) := by
    simp [Raw.host, List.append_assoc]
  rw [e]
  refine ⟨?_, ?_, ?_, ?_, ?_⟩
  · exact rd4_at [] _ _ 0 rfl (by simp [h1])
  · exact rd4_at _ _ _ 4 (by simp [h1]) (by simp [h3])
  · rw [← List.append_assoc]
    exact rd4_at _ _ _ 8 (by simp [h1, h3]) (leBytes_length _ _)
  · rw [← List.append_assoc, ← List.append_assoc]
    exact List.drop_left' (by simp [h1, h3, leBytes_length])
  · simp only [List.length_append, List.length_reverse, h1, h3, leBytes_length]; omega

theorem Raw.net_parts {a : Raw} (h : a.ok) (r : List Nat) :
    rd4 (a.net ++ r) 0 = some a.disc ∧ rd4 (a.net ++ r) 4 = some a.id ∧
      rd4 (a.net ++ r) 8 = some (beBytes 4 a.val.length) ∧ (a.net ++ r).drop 12 = a.val ++ r ∧
      (a.net ++ r).length = 12 + a.val.length + r.length := by
  obtain ⟨h1, h2, h3, h4⟩ := h
  have e : a.net ++ r = a.disc ++ (a.id ++ (beBytes 4 a.val.length ++ (a.val ++ r))) := by
    simp [Raw.net, List.append_assoc]
  rw [e]
  refine ⟨?_, ?_, ?_, ?_, ?_⟩
  · exact rd4_at [] _ _ 0 rfl h1
  · exact rd4_at _ _ _ 4 h1 h3
  · rw [← List.append_assoc]
    exact rd4_at _ _ _ 8 (by simp [h1, h3]) (beBytes_length _ _)
  · rw [← List.append_assoc, ← List.append_assoc]
    exact List.drop_left' (by simp [h1, h3, beBytes_length])
  · simp only [List.length_append, h1, h3, beBytes_length]; omega

theorem drop_parts {s v r : List Nat} (h : s.drop 12 = v ++ r) :
    s.drop (12 + v.length) = r ∧ (s.drop 12).take v.length = v := by
  constructor
  · rw [← List.drop_drop, h, List.drop_left]
  · rw [h, List.take_left]

theorem find_host (id : Nat) : ∀ f as tail, (∀ a ∈ as, a.ok) → as.length < f →
    find id f (hostBody as tail) = some (firstWithId id as) := by
  intro f
  induction f with
  | zero => intro as tail _ h; omega
  | succ f ih =>
    intro as tail hok hf
    cases as with
    | nil =>
      have : rd4 (hostBody [] tail) 0 = some zero4 := rd4_at [] zero4 tail 0 rfl rfl
      simp only [find, this, if_true, firstWithId]
    | cons a as =>
      have ha := hok a (List.mem_cons_self ..)
      have e : hostBody (a :: as) tail = a.host ++ hostBody as tail := by
        simp [hostBody, List.append_assoc]
      obtain ⟨p0, p1, p2, p3, p4⟩ := Raw.host_parts ha (hostBody as tail)
      obtain ⟨q1, q2⟩ := drop_parts p3
      rw [e]
      simp only [find, p0, p1, p2, reverse_ne_zero4 ha.2.1, if_false,
        leVal_leBytes 4 _ ha.2.2.2, q1, q2, firstWithId]
      have hid : leVal a.id.reverse = beVal a.id := by rw [leVal, List.reverse_reverse]
      rw [hid]
      split
      · rw [if_pos (by omega)]
      · exact ih as tail (fun x hx => hok x (List.mem_cons_of_mem _ hx))
          (by simp at hf; omega)

/-! ## byte order -/

theorem swap_net : ∀ f as tail, (∀ a ∈ as, a.ok) → as.length < f →
    swap beVal f (netBody as tail) = some (hostBody as tail) := by
  intro f
  induction f with
  | zero => intro as tail _ h; omega
  | succ f ih =>
    intro as tail hok hf
    cases as with
    | nil =>
      have : rd4 (netBody [] tail) 0 = some zero4 := rd4_at [] zero4 tail 0 rfl rfl
      simp only [swap, this, if_true]
      rfl
    | cons a as =>
      have ha := hok a (List.mem_cons_self ..)
      have e : netBody (a :: as) tail = a.net ++ netBody as tail := by
        simp [netBody, List.append_assoc]
      obtain ⟨p0, p1, p2, p3, p4⟩ := Raw.net_parts ha (netBody as tail)
      obtain ⟨q1, q2⟩ := drop_parts p3
      rw [e]
      simp only [swap, p0, p1, p2, ha.2.1, if_false, beVal_beBytes 4 _ ha.2.2.2, q1, q2]
      rw [if_pos (by omega), ih as tail (fun x hx => hok x (List.mem_cons_of_mem _ hx))
          (by simp at hf; omega)]
      simp [hostBody, Raw.host, rev_beBytes, List.append_assoc]

theorem swap_host : ∀ f as tail, (∀ a ∈ as, a.ok) → as.length < f →
    swap leVal f (hostBody as tail) = some (netBody as tail) := by
  intro f
  induction f with
  | zero => intro as tail _ h; omega
  | succ f ih =>
    intro as tail hok hf
    cases as with
    | nil =>
      have : rd4 (hostBody [] tail) 0 = some zero4 := rd4_at [] zero4 tail 0 rfl rfl
      simp only [swap, this, if_true]
      rfl
    | cons a as =>
      have ha := hok a (List.mem_cons_self ..)
      have e : hostBody (a :: as) tail = a.host ++ hostBody as tail := by
        simp [hostBody, List.append_assoc]
      obtain ⟨p0, p1, p2, p3, p4⟩ := Raw.host_parts ha (hostBody as tail)
      obtain ⟨q1, q2⟩ := drop_parts p3
      rw [e]
      simp only [swap, p0, p1, p2, reverse_ne_zero4 ha.2.1, if_false,
        leVal_leBytes 4 _ ha.2.2.2, q1, q2]
      rw [if_pos (by omega), ih as tail (fun x hx => hok x (List.mem_cons_of_mem _ hx))
          (by simp at hf; omega)]
      simp [netBody, Raw.net, rev_leBytes, List.append_assoc]

/-- **C20, byte order (any bytes).**  If converting the attribute words to network order stays
inside the buffer, converting back gives the original bytes. -/
theorem swap_round_trip : ∀ f s s', swap leVal f s = some s' → swap beVal f s' = some s := by
  intro f
  induction f with
  | zero => intro s s' h; cases h
  | succ f ih =>
    intro s s' h
    rw [swap] at h
    cases h0 : rd4 s 0 with
    | none => rw [h0] at h; cases h
    | some d =>
      simp only [h0] at h
      by_cases hd : d = zero4
      · simp only [hd, if_true] at h
        injection h with h; subst h
        simp only [swap, h0, hd, if_true]
      · simp only [hd, if_false] at h
        cases h1 : rd4 s 4 with
        | none => simp only [h1] at h; cases h
        | some i =>
          cases h2 : rd4 s 8 with
          | none => simp only [h1, h2] at h; cases h
          | some l =>
            simp only [h1, h2] at h
            split at h
            · rename_i hle
              obtain ⟨a, b, c, e⟩ := rd4_three h0 h1 h2
              cases hr : swap leVal f (s.drop (12 + leVal l)) with
              | none => rw [hr] at h; cases h
              | some r =>
                rw [hr] at h
                injection h with h; subst h
                have ih' := ih _ _ hr
                have hv : ((s.drop 12).take (leVal l)).length = leVal l := by
                  rw [List.length_take, List.length_drop]; omega
                generalize hvd : (s.drop 12).take (leVal l) = v at *
                have p0 : rd4 (d.reverse ++ (i.reverse ++ (l.reverse ++ (v ++ r)))) 0 = some d.reverse :=
                  rd4_at [] _ _ 0 rfl (by simp [a])
                have p1 : rd4 (d.reverse ++ (i.reverse ++ (l.reverse ++ (v ++ r)))) 4 = some i.reverse :=
                  rd4_at _ _ _ 4 (by simp [a]) (by simp [b])
                have p2 : rd4 (d.reverse ++ (i.reverse ++ (l.reverse ++ (v ++ r)))) 8 = some l.reverse := by
                  rw [← List.append_assoc]
                  exact rd4_at _ _ _ 8 (by simp [a, b]) (by simp [c])
                have p3 : (d.reverse ++ (i.reverse ++ (l.reverse ++ (v ++ r)))).drop 12 = v ++ r := by
                  rw [← List.append_assoc, ← List.append_assoc]
                  exact List.drop_left' (by simp [a, b, c])
                obtain ⟨q1, q2⟩ := drop_parts p3
                have hl : beVal l.reverse = v.length := by rw [hv]; rfl
                simp only [swap, p0, p1, p2, reverse_ne_zero4 hd, if_false, hl, q1, q2, ih']
                rw [if_pos (by simp [a, b, c]; omega)]
                congr 1
                simp only [List.reverse_reverse]
                conv => rhs; rw [e]
                congr 3
                rw [← hvd, ← List.drop_drop, List.take_append_drop]
            · cases h

theorem take_drop4 (l : List Nat) : l.take 4 ++ l.drop 4 = l := List.take_append_drop 4 l

/-- swapping the header words twice changes nothing -/
theorem swapHdr_swapHdr (h : List Nat) (hl : h.length = hdrSz) : swapHdr (swapHdr h) = h := by
  match h, hl with
  | [a0, a1, a2, a3, b0, b1, b2, b3, c0, c1, c2, c3, d0, d1, d2, d3, e0, e1, e2, e3, f0, f1, f2, f3], _ =>
    rfl

theorem swapHdr_length (h : List Nat) (hl : h.length = hdrSz) : (swapHdr h).length = hdrSz := by
  match h, hl with
  | [a0, a1, a2, a3, b0, b1, b2, b3, c0, c1, c2, c3, d0, d1, d2, d3, e0, e1, e2, e3, f0, f1, f2, f3], _ =>
    rfl

theorem swapHdr_len (h r : List Nat) (hl : h.length = hdrSz) :
    ((swapHdr h ++ r).drop 20).take 4 = (((h ++ r).drop 20).take 4).reverse := by
  match h, hl with
  | [a0, a1, a2, a3, b0, b1, b2, b3, c0, c1, c2, c3, d0, d1, d2, d3, e0, e1, e2, e3, f0, f1, f2, f3], _ =>
    rfl

theorem swap_length {g : List Nat → Nat} : ∀ f s s', swap g f s = some s' → s'.length = s.length := by
  intro f
  induction f with
  | zero => intro s s' h; cases h
  | succ f ih =>
    intro s s' h
    rw [swap] at h
    cases h0 : rd4 s 0 with
    | none => rw [h0] at h; cases h
    | some d =>
      simp only [h0] at h
      by_cases hd : d = zero4
      · simp only [hd, if_true] at h
        injection h with h; subst h; rfl
      · simp only [hd, if_false] at h
        cases h1 : rd4 s 4 with
        | none => simp only [h1] at h; cases h
        | some i =>
          cases h2 : rd4 s 8 with
          | none => simp only [h1, h2] at h; cases h
          | some l =>
            simp only [h1, h2] at h
            split at h
            · rename_i hle
              obtain ⟨a, b, c, e⟩ := rd4_three h0 h1 h2
              cases hr : swap g f (s.drop (12 + g l)) with
              | none => rw [hr] at h; cases h
              | some r =>
                rw [hr] at h
                injection h with h; subst h
                have := ih _ _ hr
                simp only [List.length_append, List.length_reverse, a, b, c, List.length_take,
                  List.length_drop] at this ⊢
                omega
            · cases h

/-- **C20, byte order.**  For every buffer holding at least a header: if `ldmsd_hton_req_msg`
stays inside the buffer then `ldmsd_ntoh_req_msg` applied to the result gives the original
message. -/
theorem hton_ntoh_identity (m m' : List Nat) (hm : hdrSz ≤ m.length) (h : hton m = some m') :
    ntoh m' = some m := by
  have hlen : (m.take hdrSz).length = hdrSz := by rw [List.length_take]; omega
  have hsl := swapHdr_length _ hlen
  rw [hton] at h
  split at h
  · rename_i h24
    injection h with h; subst h
    have hrl : beVal (((swapHdr (m.take hdrSz) ++ m.drop hdrSz).drop 20).take 4) = hdrSz := by
      rw [swapHdr_len _ _ hlen, List.take_append_drop]; exact h24
    rw [ntoh, if_pos hrl, List.take_left' hsl, List.drop_left' hsl, swapHdr_swapHdr _ hlen,
      List.take_append_drop]
  · rename_i h24
    cases hr : swap leVal (m.length + 1) (m.drop hdrSz) with
    | none => rw [hr] at h; cases h
    | some r =>
      rw [hr] at h
      injection h with h; subst h
      have hrl : ¬ beVal (((swapHdr (m.take hdrSz) ++ r).drop 20).take 4) = hdrSz := by
        rw [swapHdr_len _ _ hlen]
        intro hx
        apply h24
        have : (m.take hdrSz ++ r).drop 20 = (m.take hdrSz).drop 20 ++ r := by
          rw [List.drop_append_of_le_length (by rw [hlen]; decide)]
        rw [this] at hx
        have h2 : m.drop 20 = (m.take hdrSz).drop 20 ++ m.drop hdrSz := by
          rw [← List.drop_append_of_le_length (by rw [hlen]; decide), List.take_append_drop]
        have h4 : ((m.take hdrSz).drop 20).length = 4 := by rw [List.length_drop, hlen]; rfl
        rw [List.take_left' h4] at hx
        rw [h2, List.take_left' h4]
        exact hx
      have hrlen := swap_length _ _ _ hr
      rw [ntoh, if_neg hrl, List.take_left' hsl, List.drop_left' hsl, swapHdr_swapHdr _ hlen]
      have hlen2 : (swapHdr (m.take hdrSz) ++ r).length = m.length := by
        rw [List.length_append, hsl, hrlen, List.length_drop]; omega
      rw [hlen2, swap_round_trip _ _ _ hr]
      simp only [List.take_append_drop]

/-! ## validation -/

/-- a value is empty or ends with a NUL byte -/
def nulTerminated (v : List Nat) : Bool :=
  match v.getLast? with
  | none => true
  | some b => b == 0

/-- the `rec_len` word of a message in network order -/
def recLen (m : List Nat) : Nat := beVal ((m.drop 20).take 4)

theorem rd4_drop (m : List Nat) (p k : Nat) (hp : p ≤ m.length) :
    rd4 m (p + k) = rd4 (m.drop p) k := by
  rw [rd4, rd4, List.length_drop, List.drop_drop]
  by_cases h : p + k + 4 ≤ m.length
  · rw [if_pos h, if_pos (by omega)]
  · rw [if_neg h, if_neg (by omega)]

theorem netBody_first (as : List Raw) (tail : List Nat) (hok : ∀ a ∈ as, a.ok) :
    ∃ d, rd4 (netBody as tail) 0 = some d ∧ (d ≠ zero4 → 16 ≤ (netBody as tail).length) ∧
      4 ≤ (netBody as tail).length := by
  cases as with
  | nil =>
    refine ⟨zero4, rd4_at [] zero4 tail 0 rfl rfl, fun h => absurd rfl h, ?_⟩
    simp [netBody, zero4]
  | cons a as =>
    have ha := hok a (List.mem_cons_self ..)
    have e : netBody (a :: as) tail = a.net ++ netBody as tail := by
      simp [netBody, List.append_assoc]
    obtain ⟨p0, p1, p2, p3, p4⟩ := Raw.net_parts ha (netBody as tail)
    rw [e]
    have : 4 ≤ (netBody as tail).length := by simp [netBody, zero4]; omega
    exact ⟨a.disc, p0, fun _ => by omega, by omega⟩

/-- on a list of attributes the loop answers whether all values are NUL-terminated -/
theorem validLoop_body (m : List Nat) (hm : m.length < 2 ^ 32) (tail : List Nat) : ∀ f as pos,
    (∀ a ∈ as, a.ok) → as.length < f → pos ≤ m.length → m.drop pos = netBody as tail →
    validLoop m m.length f pos pos = some (as.all (fun a => nulTerminated a.val)) := by
  intro f
  induction f with
  | zero => intro as pos _ h; omega
  | succ f ih =>
    intro as pos hok hf hpos hd
    have r0 := rd4_drop m pos 0 hpos
    have r8 := rd4_drop m pos 8 hpos
    rw [hd, Nat.add_zero] at r0
    rw [hd] at r8
    cases as with
    | nil =>
      have : rd4 (netBody [] tail) 0 = some zero4 := rd4_at [] zero4 tail 0 rfl rfl
      rw [this] at r0
      simp only [validLoop, r0, if_true]
      rfl
    | cons a as =>
      have ha := hok a (List.mem_cons_self ..)
      have e : netBody (a :: as) tail = a.net ++ netBody as tail := by
        simp [netBody, List.append_assoc]
      obtain ⟨p0, p1, p2, p3, p4⟩ := Raw.net_parts ha (netBody as tail)
      obtain ⟨q1, q2⟩ := drop_parts p3
      rw [e] at r0 r8 hd
      rw [p0] at r0
      rw [p2] at r8
      have hlen : (m.drop pos).length = 12 + a.val.length + (netBody as tail).length := by
        rw [hd, p4]
      rw [List.length_drop] at hlen
      obtain ⟨d', hd', h16, h4⟩ := netBody_first as tail (fun x hx => hok x (List.mem_cons_of_mem _ hx))
      have hpos' : pos + 12 + a.val.length ≤ m.length := by omega
      have hdrop : m.drop (pos + 12 + a.val.length) = netBody as tail := by
        rw [Nat.add_assoc, ← List.drop_drop, hd, q1]
      have rn := rd4_drop m (pos + 12 + a.val.length) 0 hpos'
      rw [hdrop, hd', Nat.add_zero] at rn
      have hmod : (pos + 12 + a.val.length) % 2 ^ 32 = pos + 12 + a.val.length :=
        Nat.mod_eq_of_lt (by omega)
      have hlast : (if a.val.length = 0 then some 0 else m[pos + 12 + (a.val.length - 1)]?) =
          some (a.val.getLast?.getD 0) := by
        split
        · rename_i h0
          rw [List.length_eq_zero_iff.1 h0]; rfl
        · rename_i h0
          rw [← List.getElem?_drop, ← List.drop_drop, hd, p3,
            List.getElem?_append_left (by omega), ← List.getLast?_eq_getElem?]
          cases hv : a.val with
          | nil => rw [hv] at h0; exact absurd rfl h0
          | cons x xs =>
            rw [List.getLast?_eq_some_getLast (by simp)]
            rfl
      rw [validLoop]
      simp only [r0, ha.2.1, if_false, r8, beVal_beBytes 4 _ ha.2.2.2, hmod, hlast, rn]
      rw [if_neg (by omega)]
      have hall : (a :: as).all (fun a => nulTerminated a.val) =
          (nulTerminated a.val && as.all (fun a => nulTerminated a.val)) := rfl
      have hnul : nulTerminated a.val = (a.val.getLast?.getD 0 == 0) := by
        rw [nulTerminated]; cases a.val.getLast? <;> rfl
      rw [hall, hnul]
      by_cases hz : a.val.getLast?.getD 0 = 0
      · rw [if_neg (by rw [hz]; simp), hz, if_neg]
        · rw [ih as _ (fun x hx => hok x (List.mem_cons_of_mem _ hx)) (by simp at hf; omega)
            hpos' hdrop]
          rfl
        · rintro ⟨hx, hy⟩
          have := h16 hx
          omega
      · rw [if_pos hz]
        simp [hz]

theorem netBody_length (as : List Raw) (tail : List Nat) (hok : ∀ a ∈ as, a.ok) :
    12 * as.length + 4 ≤ (netBody as tail).length := by
  induction as with
  | nil => simp [netBody, zero4]
  | cons a as ih =>
    have ha := hok a (List.mem_cons_self ..)
    have e : netBody (a :: as) tail = a.net ++ netBody as tail := by
      simp [netBody, List.append_assoc]
    obtain ⟨_, _, _, _, p4⟩ := Raw.net_parts ha (netBody as tail)
    have := ih (fun x hx => hok x (List.mem_cons_of_mem _ hx))
    rw [e, p4, List.length_cons]
    omega

/-- **C43, well-formed messages.**  A message made of a header, any list of attributes and the
terminator, whose length word is its length, is accepted exactly if every attribute value is empty
or ends with a NUL byte; validation never reads outside it. -/
theorem validate_well_formed (h : List Nat) (as : List Raw) (hh : h.length = hdrSz)
    (hok : ∀ a ∈ as, a.ok) (hlen : recLen (h ++ netBody as []) = (h ++ netBody as []).length)
    (hsz : (h ++ netBody as []).length < 2 ^ 32) :
    validate (h ++ netBody as []) = some (as.all (fun a => nulTerminated a.val)) := by
  have hd : (h ++ netBody as []).drop hdrSz = netBody as [] := List.drop_left' hh
  rw [validate]
  simp only [← recLen.eq_def, hlen]
  have hl : (h ++ netBody as []).length = hdrSz + (netBody as []).length := by
    rw [List.length_append, hh]
  cases as with
  | nil =>
    rw [if_pos (by rw [hl]; rfl)]
    have := rd4_drop (h ++ netBody [] []) hdrSz 0 (by omega)
    rw [hd, Nat.add_zero] at this
    rw [this]
    rfl
  | cons a as =>
    have := netBody_length (a :: as) [] hok
    rw [List.length_cons] at this
    rw [if_neg (by omega), if_neg (by omega)]
    apply validLoop_body _ hsz [] _ _ _ hok
    · rw [hl, List.length_cons]; omega
    · omega
    · exact hd

/-- what acceptance says about the bytes -/
theorem validLoop_true (m : List Nat) (hm : m.length < 2 ^ 32) (hb : ∀ b ∈ m, b < 256) :
    ∀ f pos, pos ≤ m.length → (∀ d, rd4 m pos = some d → d ≠ zero4 → pos + 12 ≤ m.length) →
    validLoop m m.length f pos pos = some true →
    ∃ as tail, m.drop pos = netBody as tail ∧ (∀ a ∈ as, a.ok ∧ nulTerminated a.val = true) := by
  intro f
  induction f with
  | zero => intro pos _ _ h; cases h
  | succ f ih =>
    intro pos hpos hroom h
    rw [validLoop] at h
    cases h0 : rd4 m pos with
    | none => rw [h0] at h; cases h
    | some d =>
      simp only [h0] at h
      by_cases hd : d = zero4
      · have := rd4_spec h0
        exact ⟨[], m.drop (pos + 4), by rw [this.2, hd]; rfl, by simp⟩
      · simp only [hd, if_false] at h
        have hroom' := hroom d h0 hd
        cases h8 : rd4 m (pos + 8) with
        | none => rw [h8] at h; cases h
        | some l =>
          simp only [h8] at h
          have r0 := rd4_drop m pos 0 hpos
          have r4 := rd4_drop m pos 4 hpos
          have r8 := rd4_drop m pos 8 hpos
          have h4 : ∃ i, rd4 m (pos + 4) = some i := by
            rw [rd4, if_pos (by omega)]; exact ⟨_, rfl⟩
          obtain ⟨i, h4⟩ := h4
          rw [Nat.add_zero, h0] at r0
          rw [h4] at r4
          rw [h8] at r8
          obtain ⟨hdl, hil, hll, hs⟩ := rd4_three r0.symm r4.symm r8.symm
          rw [List.drop_drop] at hs
          have hlb : ∀ b ∈ l, b < 256 := by
            intro b hbl
            apply hb
            apply List.mem_of_mem_drop (i := pos)
            rw [hs]; simp [hbl]
          have hlt : beVal l < 256 ^ 4 := by
            have := beVal_lt l hlb; rwa [hll] at this
          generalize hlen : beVal l = len at h hlt
          split at h
          · cases h
          · rename_i hoff
            cases hx : (if len = 0 then some 0 else m[pos + 12 + (len - 1)]?) with
            | none => rw [hx] at h; cases h
            | some last =>
              simp only [hx] at h
              have hbound : pos + 12 + len ≤ m.length := by
                split at hx
                · omega
                · have := (List.getElem?_eq_some_iff.1 hx).1
                  omega
              have hmod : (pos + 12 + len) % 2 ^ 32 = pos + 12 + len := Nat.mod_eq_of_lt (by omega)
              rw [hmod] at h hoff
              split at h
              · cases h
              · rename_i hz
                have hz' : last = 0 := by simpa using hz
                subst hz'
                cases h5 : rd4 m (pos + 12 + len) with
                | none => rw [h5] at h; cases h
                | some d' =>
                  simp only [h5] at h
                  split at h
                  · cases h
                  · rename_i hcond
                    obtain ⟨as, tail, h6, h7⟩ := ih (pos + 12 + len) hbound (by
                      intro d2 h2 hne
                      rw [h5] at h2; injection h2 with h2; subst h2
                      have : ¬ (pos + 12 + len + 12 + 4 > m.length) := fun hgt => hcond ⟨hne, hgt⟩
                      omega) h
                    have hval : ((m.drop (pos + 12)).take len).length = len := by
                      rw [List.length_take, List.length_drop]; omega
                    refine ⟨⟨d, i, (m.drop (pos + 12)).take len⟩ :: as, tail, ?_, ?_⟩
                    · have e : netBody (⟨d, i, (m.drop (pos + 12)).take len⟩ :: as) tail =
                          d ++ (i ++ (beBytes 4 len ++ ((m.drop (pos + 12)).take len ++ netBody as tail))) := by
                        simp [netBody, Raw.net, hval, List.append_assoc]
                      rw [e, ← h6, ← hlen, beBytes_beVal 4 l hll hlb, hlen]
                      rw [← List.drop_drop (i := len), List.take_append_drop]
                      exact hs
                    · intro a ha
                      rcases List.mem_cons.1 ha with ha | ha
                      · subst ha
                        refine ⟨⟨hdl, hd, hil, by rw [hval]; exact hlt⟩, ?_⟩
                        rw [nulTerminated]
                        show (match ((m.drop (pos + 12)).take len).getLast? with
                          | none => true | some b => b == 0) = true
                        split at hx
                        · rename_i h0'
                          subst h0'
                          simp
                        · rename_i hne
                          rw [List.getLast?_eq_getElem?, hval, List.getElem?_take_of_lt (by omega),
                            List.getElem?_drop, hx]
                          rfl
                      · exact h7 a ha

/-- **C43, soundness of validation.**  Every received message that validation accepts (its length
word being the number of bytes gathered, see C19) consists of a header and a list of attributes
with a terminator, all inside the buffer, every value empty or NUL-terminated. -/
theorem validate_sound (m : List Nat) (hb : ∀ b ∈ m, b < 256) (hl : recLen m = m.length)
    (hsz : m.length < 2 ^ 32) (h : validate m = some true) :
    ∃ as tail, m = m.take hdrSz ++ netBody as tail ∧
      ∀ a ∈ as, a.ok ∧ nulTerminated a.val = true := by
  rw [validate] at h
  simp only [← recLen.eq_def, hl] at h
  split at h
  · rename_i h28
    cases h0 : rd4 m hdrSz with
    | none => rw [h0] at h; cases h
    | some d =>
      rw [h0] at h
      simp only [Option.some.injEq, decide_eq_true_eq] at h
      subst h
      have := rd4_spec h0
      refine ⟨[], m.drop (hdrSz + 4), ?_, by simp⟩
      have e : netBody [] (m.drop (hdrSz + 4)) = zero4 ++ m.drop (hdrSz + 4) := rfl
      rw [e, ← this.2, List.take_append_drop]
  · split at h
    · cases h
    · rename_i h36
      obtain ⟨as, tail, h1, h2⟩ := validLoop_true m hsz hb _ hdrSz (by omega)
        (fun d _ _ => by omega) h
      exact ⟨as, tail, by rw [← h1, List.take_append_drop], h2⟩

/-- **C43, handling an accepted message is memory safe.**  After acceptance, the conversion to host
order and the look-up of any attribute id stay inside the message; each look-up gives the first
attribute with that id as a NUL-terminated value, or nothing. -/
theorem validated_safe (m : List Nat) (hb : ∀ b ∈ m, b < 256) (hl : recLen m = m.length)
    (hsz : m.length < 2 ^ 32) (h : validate m = some true) :
    ∃ m' as, ntoh m = some m' ∧ (∀ a ∈ as, nulTerminated a.val = true) ∧
      ∀ id, getById m' id = some (firstWithId id as) := by
  obtain ⟨as, tail, he, hok⟩ := validate_sound m hb hl hsz h
  have hlen : (m.take hdrSz).length = hdrSz := by
    rw [List.length_take]
    have : hdrSz ≤ m.length := by
      rw [validate] at h
      simp only [← recLen.eq_def, hl] at h
      split at h
      · omega
      · split at h
        · cases h
        · omega
    omega
  have hd : m.drop hdrSz = netBody as tail := by
    conv => lhs; rw [he]
    exact List.drop_left' hlen
  have hn := netBody_length as tail (fun a ha => (hok a ha).1)
  have hml : (netBody as tail).length = m.length - hdrSz := by rw [← hd, List.length_drop]
  refine ⟨swapHdr (m.take hdrSz) ++ hostBody as tail, as, ?_, fun a ha => (hok a ha).2, ?_⟩
  · rw [ntoh, if_neg]
    · rw [hd, swap_net _ _ _ (fun a ha => (hok a ha).1) (by omega)]
    · show ¬ recLen m = hdrSz
      rw [hl]; omega
  · intro id
    rw [getById, List.drop_left' (swapHdr_length _ hlen)]
    apply find_host _ _ _ _ (fun a ha => (hok a ha).1)
    have h1 := swap_net (as.length + 1) as tail (fun a ha => (hok a ha).1) (by omega)
    have h2 := swap_length _ _ _ h1
    rw [List.length_append, h2]
    omega

theorem rd4_in {m : List Nat} {o : Nat} (h : o + 4 ≤ m.length) : rd4 m o = some ((m.drop o).take 4) := by
  rw [rd4, if_pos h]

theorem validLoop_safe (m : List Nat)
    (hw : ∀ pos, hdrSz ≤ pos → pos + 12 ≤ m.length →
      pos + 12 + beVal ((m.drop (pos + 8)).take 4) < 2 ^ 32) :
    ∀ f pos, hdrSz ≤ pos → pos + 4 ≤ m.length → m.length < f + pos →
      (rd4 m pos ≠ some zero4 → pos + 12 ≤ m.length) →
      validLoop m m.length f pos pos ≠ none := by
  intro f
  induction f with
  | zero => intro pos _ h1 h2; omega
  | succ f ih =>
    intro pos h0 h1 h2 h3
    have r0 := rd4_in h1
    rw [validLoop]
    simp only [r0]
    by_cases hz : (m.drop pos).take 4 = zero4
    · rw [if_pos hz]; simp
    · rw [if_neg hz]
      have h12 := h3 (by rw [r0]; simpa using hz)
      rw [rd4_in (m := m) (o := pos + 8) (by omega)]
      have hlt := hw pos h0 h12
      simp only [Nat.mod_eq_of_lt hlt]
      generalize beVal ((m.drop (pos + 8)).take 4) = len at *
      by_cases hb : pos + 12 + len + 4 > m.length
      · rw [if_pos hb]; simp
      · rw [if_neg hb]
        have hlast : ∃ b, (if len = 0 then some 0 else m[pos + 12 + (len - 1)]?) = some b := by
          split
          · exact ⟨0, rfl⟩
          · exact ⟨_, List.getElem?_eq_getElem (by omega)⟩
        obtain ⟨b, hlast⟩ := hlast
        simp only [hlast]
        by_cases hb0 : b ≠ 0
        · rw [if_pos hb0]; simp
        · rw [if_neg hb0, rd4_in (m := m) (o := pos + 12 + len) (by omega)]
          simp only
          split
          · simp
          · rename_i hd
            exact ih _ (by omega) (by omega) (by omega) (fun hn => by
              rw [rd4_in (m := m) (o := pos + 12 + len) (by omega)] at hn
              have : (m.drop (pos + 12 + len)).take 4 ≠ zero4 := fun e => hn (by rw [e])
              have : ¬ pos + 12 + len + 12 + 4 > m.length := fun e => hd ⟨this, e⟩
              omega)

/-- **C43, validation itself is memory safe, partly.**  Validation of any received message, whatever its
bytes, stays inside the message, if no four of its bytes read as a length so large that the 32-bit offset
wraps.  (Without that condition it fails: `validate_overflow_defect`.) -/
theorem validate_in_bounds_partial (m : List Nat) (hl : recLen m = m.length)
    (hw : ∀ pos, hdrSz ≤ pos → pos + 12 ≤ m.length →
      pos + 12 + beVal ((m.drop (pos + 8)).take 4) < 2 ^ 32) :
    validate m ≠ none := by
  rw [validate]
  simp only [← recLen.eq_def, hl]
  split
  · rw [rd4_in (m := m) (o := hdrSz) (by omega)]; simp
  · split
    · simp
    · rename_i h1 h2
      exact validLoop_safe m hw _ _ (Nat.le_refl _) (by omega) (by omega) (fun _ => by omega)

/-- a message that is refused: its attribute ends exactly at the end of the message, with no room for the
terminator -/
example : validate (List.replicate 20 0 ++ (beBytes 4 36 ++ (beBytes 4 1 ++ (beBytes 4 1 ++ beBytes 4 0)))) =
    some false := by decide

/-- that message, and one full of junk, meet the hypotheses of `validate_in_bounds_partial` -/
example : (∀ m ∈ [List.replicate 20 0 ++ (beBytes 4 36 ++ (beBytes 4 1 ++ (beBytes 4 1 ++ beBytes 4 0))),
      List.replicate 20 255 ++ (beBytes 4 44 ++ List.replicate 20 65)],
    recLen m = m.length ∧ ∀ pos, pos < m.length → hdrSz ≤ pos → pos + 12 ≤ m.length →
      pos + 12 + beVal ((m.drop (pos + 8)).take 4) < 2 ^ 32) := by decide

/-- **C43, defect.**  Validation of a 40-byte message reads outside it: the attribute length
0xfffffff4 wraps the 32-bit offset back to its old value, so the range check passes, and the NUL
check then reads `attr_value[0xfffffff3]`. -/
theorem validate_overflow_defect :
    ∃ m : List Nat, (∀ b ∈ m, b < 256) ∧ recLen m = m.length ∧ m.length = 40 ∧
      validate m = none := by
  refine ⟨List.replicate 20 0 ++ (beBytes 4 40 ++ (beBytes 4 1 ++ (beBytes 4 1 ++
    (beBytes 4 0xfffffff4 ++ zero4)))), by decide, by decide, by decide, ?_⟩
  have e : ∀ m : List Nat, m.length = 40 → m[4294967327]? = none := by
    intro m hm
    exact List.getElem?_eq_none_iff.2 (by omega)
  simp only [validate]
  rw [if_neg (by decide), if_neg (by decide)]
  rw [validLoop]
  generalize hm : List.replicate 20 0 ++ (beBytes 4 40 ++ (beBytes 4 1 ++ (beBytes 4 1 ++
    (beBytes 4 0xfffffff4 ++ zero4)))) = m
  have h0 : rd4 m hdrSz = some [0, 0, 0, 1] := by subst hm; decide
  have h1 : rd4 m (hdrSz + 8) = some [255, 255, 255, 244] := by subst hm; decide
  have h2 : m.length = 40 := by subst hm; decide
  have h3 : beVal (List.take 4 (List.drop 20 m)) = 40 := by subst hm; decide
  have h4 : beVal [255, 255, 255, 244] = 4294967284 := by decide
  have h5 : hdrSz + 12 + (4294967284 - 1) = 4294967319 := by decide
  simp only [h0, h1, h3, h4, h5]
  rw [if_neg (by decide), if_neg (by decide), if_neg (by decide),
    List.getElem?_eq_none_iff.2 (by omega)]

/-- **C43, defect.**  The error replies a daemon sends with `ldmsd_send_error_reply` carry the
message text with the length `strlen(text)` the callers pass (`ldmsd_request.c:1179-1201`, callers
`:1260`, `:1302`, `:1465`), so without a final NUL: a daemon receiving such a reply refuses it,
whatever the (non-empty) text. -/
theorem error_reply_refused_defect (h text : List Nat) (hh : h.length = hdrSz)
    (ht : ∀ b ∈ text, b ≠ 0) (hne : text ≠ []) (id : List Nat) (hid : id.length = 4)
    (hlen : recLen (h ++ netBody [⟨beBytes 4 1, id, text⟩] []) =
      (h ++ netBody [⟨beBytes 4 1, id, text⟩] []).length)
    (hsz : (h ++ netBody [⟨beBytes 4 1, id, text⟩] []).length < 2 ^ 32) :
    validate (h ++ netBody [⟨beBytes 4 1, id, text⟩] []) = some false := by
  rw [validate_well_formed h _ hh _ hlen hsz]
  · congr 1
    simp only [List.all_cons, List.all_nil, Bool.and_true, nulTerminated]
    rw [List.getLast?_eq_some_getLast hne]
    simp only [beq_eq_false_iff_ne]
    exact ht _ (List.getLast_mem hne)
  · intro a ha
    rw [List.mem_singleton] at ha; subst ha
    refine ⟨rfl, by show beBytes 4 1 ≠ zero4; decide, hid, ?_⟩
    simp only [List.length_append, netBody, Raw.net, List.map_cons, List.map_nil,
      List.flatten_cons, List.flatten_nil] at hsz
    show text.length < 256 ^ 4
    omega

/-! ## building a request -/

theorem growLoop_spec (used need : Nat) : ∀ f cap, 0 < cap → used ≤ cap →
    used + need ≤ f + cap →
    ∃ cap', growLoop used need (f + 1) cap = some cap' ∧ used + need ≤ cap' := by
  intro f
  induction f with
  | zero =>
    intro cap _ hu h
    rw [growLoop, if_neg (by omega)]
    exact ⟨cap, rfl, by omega⟩
  | succ f ih =>
    intro cap hc hu h
    rw [growLoop]
    split
    · exact ih (2 * cap) (by omega) (by omega) (by omega)
    · exact ⟨cap, rfl, by omega⟩

/-- the bytes of a request's attribute list -/
def body (as : List Attr) : List Nat := (as.map encAttr).flatten ++ zero4

theorem addAttr_spec (fuel : Nat) (r : Req) (a : Option Attr) (bytes : List Nat)
    (hb : bytes = match a with | some a => encAttr a | none => zero4)
    (hc : hdrSz + r.body.length ≤ r.cap) (hf : hdrSz + r.body.length + bytes.length ≤ fuel) :
    ∃ r', addAttr (fuel + 1) r a = some r' ∧ r'.body = r.body ++ bytes ∧
      hdrSz + r'.body.length ≤ r'.cap := by
  obtain ⟨cap', h1, h2⟩ := growLoop_spec (hdrSz + r.body.length) bytes.length fuel r.cap
    (by simp [hdrSz] at hc; omega) hc (by omega)
  refine ⟨⟨cap', r.body ++ bytes⟩, ?_, rfl, ?_⟩
  · subst hb
    cases a <;> simp only [addAttr, h1] <;> rw [if_pos h2]
  · simp only [List.length_append]; omega

theorem addAll_spec : ∀ as fuel (r : Req), hdrSz + r.body.length ≤ r.cap →
    hdrSz + r.body.length + (body as).length ≤ fuel →
    ∃ r', addAll (fuel + 1) r as = some r' ∧ r'.body = r.body ++ body as ∧
      hdrSz + r'.body.length ≤ r'.cap := by
  intro as
  induction as with
  | nil =>
    intro fuel r hc hf
    exact addAttr_spec fuel r none zero4 rfl hc hf
  | cons a as ih =>
    intro fuel r hc hf
    have e : body (a :: as) = encAttr a ++ body as := by simp [body, List.append_assoc]
    rw [e, List.length_append] at hf
    obtain ⟨r1, h1, h2, h3⟩ := addAttr_spec fuel r (some a) (encAttr a) rfl hc (by omega)
    obtain ⟨r2, h4, h5, h6⟩ := ih fuel r1 h3 (by rw [h2, List.length_append]; omega)
    refine ⟨r2, ?_, ?_, h6⟩
    · simp only [addAll, h1, h4]
    · rw [h5, h2, e, List.append_assoc]

/-- an attribute as it appears in a message -/
def toRaw (a : Attr) : Raw := ⟨beBytes 4 1, beBytes 4 a.id, a.val⟩

theorem toRaw_host (a : Attr) : (toRaw a).host = encAttr a := by
  simp [toRaw, Raw.host, encAttr, rev_beBytes]

theorem body_host (as : List Attr) : body as = hostBody (as.map toRaw) [] := by
  simp [body, hostBody, List.map_map, Function.comp_def, toRaw_host]

theorem firstWithId_toRaw (id : Nat) (as : List Attr) (hid : ∀ a ∈ as, a.id < 256 ^ 4) :
    firstWithId id (as.map toRaw) = (as.find? (fun a => a.id == id)).map Attr.val := by
  induction as with
  | nil => rfl
  | cons a as ih =>
    have h1 : beVal (toRaw a).id = a.id := beVal_beBytes 4 _ (hid a (List.mem_cons_self ..))
    simp only [List.map_cons, firstWithId, h1, List.find?_cons]
    by_cases h : a.id = id
    · simp [h, toRaw]
    · simp only [h, if_false, beq_eq_false_iff_ne.2 h]
      exact ih (fun x hx => hid x (List.mem_cons_of_mem _ hx))

/-- **C20, look-up.**  Building a request from any list of attributes, in a buffer of any size that
holds the header, ends and never writes past the (re)allocated buffer; looking up any id in the
request gives the value of the first attribute added with that id, and nothing if there is none;
no read leaves the request. -/
theorem request_lookup (as : List Attr) (hid : ∀ a ∈ as, a.id < 256 ^ 4 ∧ a.val.length < 256 ^ 4)
    (cap : Nat) (hcap : hdrSz ≤ cap) :
    ∃ fuel r, addAll fuel ⟨cap, []⟩ as = some r ∧ hdrSz + r.body.length ≤ r.cap ∧
      ∀ h : List Nat, h.length = hdrSz → ∀ id,
        getById (h ++ r.body) id = some ((as.find? (fun a => a.id == id)).map Attr.val) := by
  obtain ⟨r, h1, h2, h3⟩ := addAll_spec as (hdrSz + (body as).length) ⟨cap, []⟩
    (by simpa using hcap) (by simp)
  refine ⟨_, r, h1, h3, ?_⟩
  intro h hh id
  rw [getById, List.drop_left' hh, h2, List.nil_append, body_host,
    ← firstWithId_toRaw id as (fun a ha => (hid a ha).1)]
  have hok : ∀ a ∈ as.map toRaw, a.ok := by
    intro a ha
    obtain ⟨b, hb, rfl⟩ := List.mem_map.1 ha
    exact ⟨rfl, by show beBytes 4 1 ≠ zero4; decide, beBytes_length _ _, (hid b hb).2⟩
  apply find_host _ _ _ _ hok
  have e : (hostBody (as.map toRaw) []).length = (netBody (as.map toRaw) []).length :=
    swap_length _ _ _ (swap_net ((as.map toRaw).length + 1) _ _ hok (by omega))
  have := netBody_length (as.map toRaw) [] hok
  rw [List.length_append, e]
  omega

/-- The bytes put on the wire for such a request are the same attributes in network order, so the
peer's validation accepts them if every value is NUL-terminated or empty, as `strlen(value) + 1`
makes them. -/
theorem request_hton (as : List Attr) (hid : ∀ a ∈ as, a.id < 256 ^ 4 ∧ a.val.length < 256 ^ 4)
    (h : List Nat) (hh : h.length = hdrSz)
    (hrl : leVal ((h.drop 20).take 4) = (h ++ body as).length) :
    hton (h ++ body as) = some (swapHdr h ++ netBody (as.map toRaw) []) := by
  have hok : ∀ a ∈ as.map toRaw, a.ok := by
    intro a ha
    obtain ⟨b, hb, rfl⟩ := List.mem_map.1 ha
    exact ⟨rfl, by show beBytes 4 1 ≠ zero4; decide, beBytes_length _ _, (hid b hb).2⟩
  have e : (hostBody (as.map toRaw) []).length = (netBody (as.map toRaw) []).length :=
    swap_length _ _ _ (swap_net ((as.map toRaw).length + 1) _ _ hok (by omega))
  have hn := netBody_length (as.map toRaw) [] hok
  have hl : (h ++ body as).length = hdrSz + (netBody (as.map toRaw) []).length := by
    rw [List.length_append, hh, body_host, e]
  have h20 : ((h ++ body as).drop 20).take 4 = (h.drop 20).take 4 := by
    rw [List.drop_append_of_le_length (by rw [hh]; decide), List.take_append_of_le_length (by
      rw [List.length_drop, hh]; decide)]
  rw [hton, if_neg (by rw [h20, hrl]; omega), List.drop_left' hh, List.take_left' hh, body_host,
    swap_host _ _ _ hok (by rw [List.length_append, e]; omega)]

example : getById (List.replicate 24 0 ++ body [⟨1, [97, 0]⟩, ⟨5, []⟩, ⟨1, [98, 0]⟩]) 1 =
    some (some [97, 0]) := by decide

example : validate (List.replicate 20 0 ++ (beBytes 4 56 ++
    netBody [⟨beBytes 4 1, beBytes 4 7, [97, 98, 99, 0]⟩, ⟨beBytes 4 1, beBytes 4 8, []⟩] [])) =
    some true := by decide

end Verif.ReqAttr
