import Verif.MsgBuf.Model

/-!
# Properties of the ldmsd message buffer (C19)
-/

namespace Verif.MsgBuf

open Verif

/-! ## specification -/

/-- the payload bytes of a list of records, in order -/
def payloads (rs : List Rec) : List Nat := (rs.map Rec.payload).flatten

/-- The records form one well-framed message with this payload: none is longer than the transport
limit, the first and only the first is marked start-of-message, the last and only the last is
marked end-of-message. -/
structure Framed (limit : Nat) (rs : List Rec) (payload : List Nat) : Prop where
  fits : ∀ m, ∀ r ∈ rs, (encode m r).length ≤ limit
  nonempty : rs ≠ []
  som_iff : ∀ i, (h : i < rs.length) → (rs[i].som = true ↔ i = 0)
  eom_iff : ∀ i, (h : i < rs.length) → (rs[i].eom = true ↔ i + 1 = rs.length)
  content : payloads rs = payload

/-! ## the sender -/

theorem encode_length (m : Msg) (r : Rec) : (encode m r).length = hdrSz + r.payload.length := by
  simp only [encode, List.length_append, beBytes_length, hdrSz]; omega

/-- what holds of the records emitted so far and of the buffer while a message is being built -/
structure Mid (len : Nat) (rs : List Rec) (b : Buf) (p : List Nat) : Prop where
  blen : b.len = len
  content : payloads rs ++ b.data = p
  fits : ∀ r ∈ rs, hdrSz + r.payload.length ≤ len
  bfits : hdrSz + b.data.length ≤ len
  noeom : ∀ r ∈ rs, r.eom = false
  som : (rs = [] ∧ b.som = true) ∨
    (b.som = false ∧ ∃ r rs', rs = r :: rs' ∧ r.som = true ∧ ∀ x ∈ rs', x.som = false)

/-- emitting a record which is not the last keeps `Mid` -/
theorem Mid.emit {len rs b p} (h : Mid len rs b p) (x : List Nat)
    (hx : hdrSz + (b.data ++ x).length ≤ len) :
    Mid len (rs ++ [⟨b.som, false, b.data ++ x⟩]) { len := b.len } (p ++ x) := by
  refine ⟨h.blen, ?_, ?_, ?_, ?_, ?_⟩
  · have := h.content
    simp only [payloads, List.map_append, List.flatten_append] at this ⊢
    simp [← this]
  · intro r hr
    rcases List.mem_append.1 hr with hr | hr
    · exact h.fits r hr
    · rw [List.mem_singleton] at hr; subst hr; exact hx
  · have := h.bfits; simp; omega
  · intro r hr
    rcases List.mem_append.1 hr with hr | hr
    · exact h.noeom r hr
    · rw [List.mem_singleton] at hr; subst hr; rfl
  · right
    refine ⟨rfl, ?_⟩
    rcases h.som with ⟨h1, h2⟩ | ⟨h1, r, rs', h2, h3, h4⟩
    · exact ⟨_, [], by rw [h1]; rfl, h2, by simp⟩
    · refine ⟨r, rs' ++ [⟨b.som, false, b.data ++ x⟩], by rw [h2]; rfl, h3, ?_⟩
      intro y hy
      rcases List.mem_append.1 hy with hy | hy
      · exact h4 y hy
      · rw [List.mem_singleton] at hy; subst hy; exact h1

/-- emitting the last record gives a framed message -/
theorem Mid.finish {len rs b p} (h : Mid len rs b p) (x : List Nat)
    (hx : hdrSz + (b.data ++ x).length ≤ len) :
    Framed len (rs ++ [⟨b.som, true, b.data ++ x⟩]) (p ++ x) := by
  refine ⟨?_, by simp, ?_, ?_, ?_⟩
  · intro m r hr
    rw [encode_length]
    rcases List.mem_append.1 hr with hr | hr
    · exact h.fits r hr
    · rw [List.mem_singleton] at hr; subst hr; exact hx
  · intro i hi
    rcases h.som with ⟨h1, h2⟩ | ⟨h1, r, rs', h2, h3, h4⟩
    · subst h1
      simp only [List.nil_append, List.length_singleton] at hi
      have : i = 0 := by omega
      subst this
      simp [h2]
    · subst h2
      cases i with
      | zero => simp [h3]
      | succ i =>
        simp only [List.cons_append, List.getElem_cons_succ]
        constructor
        · intro hs
          exfalso
          have hm : (rs' ++ [⟨b.som, true, b.data ++ x⟩])[i]'(by simpa using hi) ∈
            rs' ++ [(⟨b.som, true, b.data ++ x⟩ : Rec)] := List.getElem_mem _
          rcases List.mem_append.1 hm with hm | hm
          · rw [h4 _ hm] at hs; cases hs
          · rw [List.mem_singleton] at hm; rw [hm] at hs; simp [h1] at hs
        · intro hs; cases hs
  · intro i hi
    rw [List.length_append, List.length_singleton] at hi ⊢
    by_cases hlt : i < rs.length
    · rw [List.getElem_append_left hlt, h.noeom _ (List.getElem_mem _)]
      simp; omega
    · rw [List.getElem_append_right (by omega)]
      simp; omega
  · have := h.content
    simp only [payloads, List.map_append, List.flatten_append] at this ⊢
    simp [← this]

/-- the loop ends: two turns per byte are enough -/
theorem sendLoop_ends (eomArg : Bool) : ∀ f b data, hdrSz < b.len →
    2 * data.length + (if hdrSz + b.data.length < b.len then 1 else 2) ≤ f →
    (sendLoop eomArg f b data).isSome := by
  intro f
  induction f with
  | zero => intro b data _ h; split at h <;> omega
  | succ f ih =>
    intro b data hl hf
    rw [sendLoop]
    dsimp only
    split
    · rename_i hc
      split
      · rfl
      · rename_i hr
        have hn : min data.length (b.len - (hdrSz + b.data.length)) = 0 := by
          rcases hc with h | ⟨h, _⟩
          · exact h
          · exact absurd h hr
        rw [hn] at hr
        simp only [List.drop_zero] at hr
        have hpos : 0 < data.length := List.length_pos_iff.2 hr
        have := ih { len := b.len } (data.drop 0) hl (by
          simp only [List.drop_zero, List.length_nil, Nat.add_zero, hl, if_true]
          split at hf
          · omega
          · omega)
        simp only [hn]
        obtain ⟨v, hv⟩ := Option.isSome_iff_exists.1 this
        rw [hv]
        rfl
    · rename_i hc
      split
      · rfl
      · rename_i hr
        have hn : min data.length (b.len - (hdrSz + b.data.length)) ≠ 0 := fun h => hc (Or.inl h)
        apply ih
        · exact hl
        · simp only [List.length_drop]
          split at hf <;> split <;> omega

/-- appending without end-of-message -/
theorem sendLoop_mid {len} : ∀ f rs b p data b' rs', Mid len rs b p → b.eom = false →
    sendLoop false f b data = some (b', rs') →
    Mid len (rs ++ rs') b' (p ++ data) ∧ b'.eom = false := by
  intro f
  induction f with
  | zero => intro rs b p data b' rs' _ _ h; cases h
  | succ f ih =>
    intro rs b p data b' rs' hm he h
    rw [sendLoop] at h
    dsimp only at h
    generalize hn : min data.length (b.len - (hdrSz + b.data.length)) = n at h
    have hfit : hdrSz + (b.data ++ data.take n).length ≤ len := by
      have := hm.bfits; have := hm.blen
      simp only [List.length_append, List.length_take]; omega
    split at h
    · have heq : (if data.drop n ≠ [] then false else if false = true then true else b.eom) = false := by
        split
        · rfl
        · exact he
      rw [heq] at h
      have hm2 := hm.emit _ hfit
      split at h
      · rename_i hr
        injection h with h; injection h with h1 h2
        subst h1 h2
        have ht : data.take n = data := by
          have := List.take_append_drop n data
          rw [hr, List.append_nil] at this; exact this
        rw [ht] at hm2 ⊢
        exact ⟨hm2, rfl⟩
      · cases hs : sendLoop false f { len := b.len } (data.drop n) with
        | none => rw [hs] at h; cases h
        | some v =>
          obtain ⟨b2, rs2⟩ := v
          rw [hs] at h
          injection h with h; injection h with h1 h2
          subst h1 h2
          have := ih _ _ _ _ _ _ hm2 rfl hs
          rw [List.append_assoc, List.append_assoc, List.take_append_drop] at this
          exact this
    · have hm2 : Mid len rs { b with data := b.data ++ data.take n } (p ++ data.take n) := by
        refine ⟨hm.blen, ?_, hm.fits, hfit, hm.noeom, hm.som⟩
        rw [← hm.content]; simp
      split at h
      · rename_i hr
        injection h with h; injection h with h1 h2
        subst h1 h2
        have ht : data.take n = data := by
          have := List.take_append_drop n data
          rw [hr, List.append_nil] at this; exact this
        rw [List.append_nil]
        rw [ht] at hm2 ⊢
        exact ⟨hm2, he⟩
      · have := ih _ _ _ _ _ _ hm2 he h
        rw [List.append_assoc, List.take_append_drop] at this
        exact this

/-- appending with end-of-message -/
theorem sendLoop_finish {len} : ∀ f rs b p data b' rs', Mid len rs b p →
    sendLoop true f b data = some (b', rs') →
    Framed len (rs ++ rs') (p ++ data) ∧ b' = { len := len } := by
  intro f
  induction f with
  | zero => intro rs b p data b' rs' _ h; cases h
  | succ f ih =>
    intro rs b p data b' rs' hm h
    rw [sendLoop] at h
    dsimp only at h
    generalize hn : min data.length (b.len - (hdrSz + b.data.length)) = n at h
    have hfit : hdrSz + (b.data ++ data.take n).length ≤ len := by
      have := hm.bfits; have := hm.blen
      simp only [List.length_append, List.length_take]; omega
    split at h
    · split at h
      · rename_i hr
        injection h with h; injection h with h1 h2
        subst h1 h2
        have ht : data.take n = data := by
          have := List.take_append_drop n data
          rw [hr, List.append_nil] at this; exact this
        rw [ht] at hfit ⊢
        have := hm.finish _ hfit
        simp only [hr, ne_eq, not_true, if_false, if_true]
        exact ⟨this, by rw [hm.blen]⟩
      · rename_i hr
        have hm2 := hm.emit _ hfit
        cases hs : sendLoop true f { len := b.len } (data.drop n) with
        | none => rw [hs] at h; cases h
        | some v =>
          obtain ⟨b2, rs2⟩ := v
          rw [hs] at h
          injection h with h; injection h with h1 h2
          subst h1 h2
          have := ih _ _ _ _ _ _ hm2 hs
          rw [List.append_assoc, List.append_assoc, List.take_append_drop] at this
          exact this
    · rename_i hc
      have hm2 : Mid len rs { b with data := b.data ++ data.take n } (p ++ data.take n) := by
        refine ⟨hm.blen, ?_, hm.fits, hfit, hm.noeom, hm.som⟩
        rw [← hm.content]; simp
      split at h
      · rename_i hr
        exact absurd (Or.inr ⟨hr, rfl⟩) hc
      · have := ih _ _ _ _ _ _ hm2 h
        rw [List.append_assoc, List.take_append_drop] at this
        exact this

/-! ## the messages of a sender -/

theorem ite_le_two (P : Prop) [Decidable P] : (if P then 1 else 2) ≤ 2 := by
  split <;> omega

/-- The calls a sender makes for one message, given the pieces of its payload: the first carries
start-of-message, the last end-of-message. -/
def calls : Bool → List (List Nat) → List Append
  | _, [] => []
  | first, [d] => [⟨first, true, d⟩]
  | first, d :: e :: ds => ⟨first, false, d⟩ :: calls false (e :: ds)

theorem sendAll_calls {len fuel} (hl : hdrSz < len) : ∀ ds rs b p, ds ≠ [] →
    (∀ d ∈ ds, 2 * d.length + 2 ≤ fuel) → Mid len rs b p → b.eom = false →
    ∃ rs', sendAll fuel b (calls false ds) = some ({ len := len }, rs') ∧
      Framed len (rs ++ rs') (p ++ ds.flatten) := by
  intro ds
  induction ds with
  | nil => intro rs b p h; exact absurd rfl h
  | cons d ds ih =>
    intro rs b p _ hf hm he
    have hsome : ∀ e, (send fuel b ⟨false, e, d⟩).isSome := by
      intro e
      apply sendLoop_ends
      · show hdrSz < b.len; rw [hm.blen]; exact hl
      · have := hf d (List.mem_cons_self ..)
        refine Nat.le_trans ?_ this
        apply Nat.add_le_add_left
        exact ite_le_two _
    have hb : ∀ e, Mid len rs { len := b.len, data := b.data, som := b.som || false, eom := e } p := by
      intro e
      exact ⟨hm.blen, hm.content, hm.fits, hm.bfits, hm.noeom, by simpa using hm.som⟩
    cases ds with
    | nil =>
      obtain ⟨⟨b', rs'⟩, h⟩ := Option.isSome_iff_exists.1 (hsome true)
      have h' := h
      rw [send] at h'
      have := sendLoop_finish _ _ _ _ _ _ _ (hb _) h'
      refine ⟨rs', ?_, by simpa using this.1⟩
      simp only [calls, sendAll, h]
      rw [this.2, List.append_nil]
    | cons e ds =>
      obtain ⟨⟨b', rs'⟩, h⟩ := Option.isSome_iff_exists.1 (hsome false)
      have h' := h
      rw [send] at h'
      have := sendLoop_mid _ _ _ _ _ _ _ (hb _) (by simpa using he) h'
      obtain ⟨rs2, h2, h3⟩ := ih (rs ++ rs') b' (p ++ d) (by simp)
        (fun x hx => hf x (List.mem_cons_of_mem _ hx)) this.1 this.2
      refine ⟨rs' ++ rs2, ?_, by simpa [List.append_assoc] using h3⟩
      simp only [calls, sendAll, h, h2]

/-- **C19, sender.**  For every transport limit larger than a record header, every left-over
content of the buffer and every non-empty sequence of pieces, the appends of one message end, and
the records they emit are a well-framed message whose payload is the concatenation of the pieces.
The buffer is empty afterwards. -/
theorem msg_send_framed (len fuel : Nat) (hl : hdrSz < len) (b : Buf) (hb : b.len = len)
    (he : b.eom = false) (ds : List (List Nat)) (hne : ds ≠ [])
    (hf : ∀ d ∈ ds, 2 * d.length + 2 ≤ fuel) :
    ∃ rs, sendAll fuel b (calls true ds) = some ({ len := len }, rs) ∧
      Framed len rs ds.flatten := by
  -- the first call is the same as a call without SOM on an empty buffer marked SOM
  have hm : Mid len [] { len := len, data := [], som := true, eom := false } [] :=
    ⟨rfl, rfl, by simp, by simp; omega, by simp, Or.inl ⟨rfl, rfl⟩⟩
  obtain ⟨rs, h1, h2⟩ := sendAll_calls hl ds [] _ [] hne hf hm rfl
  refine ⟨rs, ?_, by simpa using h2⟩
  rw [← h1]
  have hs : ∀ d e, send fuel b ⟨true, e, d⟩ =
      send fuel { len := len, data := [], som := true, eom := false } ⟨false, e, d⟩ := by
    intro d e
    simp [send, hb, he]
  match ds, hne with
  | [d], _ => simp only [calls, sendAll, hs]
  | d :: e :: ds, _ => simp only [calls, sendAll, hs]

/-- the splitting loop of the configuration-string encoder -/
theorem split_framed {maxMsg} (hl : hdrSz < maxMsg) : ∀ f data rs b p,
    Mid maxMsg rs b p → b.data = [] → data.length < f →
    ∃ rs', split maxMsg f b.som data = some rs' ∧ Framed maxMsg (rs ++ rs') (p ++ data) := by
  intro f
  induction f with
  | zero => intro data rs b p _ _ h; omega
  | succ f ih =>
    intro data rs b p hm hd hf
    rw [split]
    generalize hn : (if maxMsg - hdrSz ≥ data.length then data.length else maxMsg - hdrSz) = n
    have hfit : hdrSz + (b.data ++ data.take n).length ≤ maxMsg := by
      rw [hd]
      simp only [List.nil_append, List.length_take]
      split at hn <;> omega
    split
    · rename_i hr
      rw [hr]
      have ht : data.take n = data := by
        have := List.take_append_drop n data
        rw [List.isEmpty_iff.1 hr, List.append_nil] at this; exact this
      refine ⟨_, rfl, ?_⟩
      have := hm.finish _ hfit
      rw [ht, hd] at this
      rw [ht]
      simpa using this
    · rename_i hr
      have hr' : (data.drop n).isEmpty = false := by simpa using hr
      rw [hr']
      have hm2 := hm.emit _ hfit
      have hlen : (data.drop n).length < f := by
        have : data.drop n ≠ [] := by
          intro h; rw [h] at hr; exact hr rfl
        have := List.length_pos_iff.2 this
        rw [List.length_drop] at this ⊢
        split at hn <;> omega
      obtain ⟨rs2, h2, h3⟩ := ih (data.drop n) _ _ _ hm2 rfl hlen
      rw [show ({ len := b.len } : Buf).som = false from rfl] at h2
      rw [h2]
      refine ⟨_, rfl, ?_⟩
      rw [List.append_assoc, List.append_assoc, List.take_append_drop, hd] at h3
      exact h3

/-- **C19, configuration strings.**  The records `ldmsd_parse_config_str` cuts an encoded command
into are a well-framed message with that content, whatever its length and whatever the transport
limit (larger than a header). -/
theorem config_split_framed (maxMsg : Nat) (hl : hdrSz < maxMsg) (data : List Nat) :
    ∃ rs, split maxMsg (data.length + 1) true data = some rs ∧ Framed maxMsg rs data := by
  have hm : Mid maxMsg [] { len := maxMsg, data := [], som := true, eom := false } [] :=
    ⟨rfl, rfl, by simp, by simp; omega, by simp, Or.inl ⟨rfl, rfl⟩⟩
  obtain ⟨rs, h1, h2⟩ := split_framed hl (data.length + 1) data [] _ [] hm rfl (by omega)
  exact ⟨rs, h1, by simpa using h2⟩

/-- A transport limit no larger than the header makes both loops run for ever (no fuel is
enough), so the hypothesis `hdrSz < len` above is needed. -/
theorem msg_send_needs_room (len fuel : Nat) (hl : len ≤ hdrSz) (d : Nat) (ds : List Nat) :
    send fuel { len := len } ⟨true, true, d :: ds⟩ = none ∧
      split len fuel true (d :: ds) = none := by
  have h0 : len - hdrSz = 0 := by omega
  constructor
  · have : ∀ f b, b.len = len → b.data = [] → sendLoop true f b (d :: ds) = none := by
      intro f
      induction f with
      | zero => intro b _ _; rfl
      | succ f ih =>
        intro b hb hd
        rw [sendLoop]
        have hn : min (d :: ds).length (b.len - (hdrSz + b.data.length)) = 0 := by
          rw [hb, hd]; simp; omega
        simp only [hn, true_or, if_true, List.drop_zero]
        rw [if_neg (by simp), ih { len := b.len } hb rfl]
    exact this _ _ rfl rfl
  · have : ∀ f som, split len f som (d :: ds) = none := by
      intro f
      induction f with
      | zero => intro _; rfl
      | succ f ih =>
        intro som
        rw [split]
        have hn : (if len - hdrSz ≥ (d :: ds).length then (d :: ds).length else len - hdrSz) = 0 := by
          rw [h0]; rfl
        simp only [hn, List.drop_zero]
        rw [if_neg (by simp), ih]
    exact this _ _

/-! ## the receiver -/

/-- the first five header words -/
def pre (m : Msg) (fl : Nat) : List Nat :=
  beBytes 4 marker ++ (beBytes 4 m.type ++ (beBytes 4 fl ++ (beBytes 4 m.msgNo ++ beBytes 4 m.code)))

theorem pre_length (m fl) : (pre m fl).length = 20 := by
  simp [pre, beBytes_length]

/-- a message with header and payload -/
def whole (m : Msg) (fl : Nat) (p : List Nat) : List Nat :=
  pre m fl ++ (beBytes 4 (hdrSz + p.length) ++ p)

theorem encode_eq (m r) : encode m r = whole m (flagBits r.som r.eom) r.payload := by
  simp [encode, whole, pre, List.append_assoc]

theorem whole_length (m fl p) : (whole m fl p).length = hdrSz + p.length := by
  simp [whole, pre_length, beBytes_length, hdrSz]; omega

theorem whole_len (m fl p) (h : hdrSz + p.length < 256 ^ 4) :
    beVal (((whole m fl p).drop 20).take 4) = hdrSz + p.length := by
  rw [whole, List.drop_left' (pre_length m fl), List.take_left' (beBytes_length _ _),
    beVal_beBytes _ _ h]

theorem whole_flags (m fl p) (h : fl < 256 ^ 4) :
    beVal (((whole m fl p).drop 8).take 4) = fl := by
  have : (whole m fl p).drop 8 = beBytes 4 fl ++ (beBytes 4 m.msgNo ++ (beBytes 4 m.code ++
      (beBytes 4 (hdrSz + p.length) ++ p))) := by
    rw [show whole m fl p = (beBytes 4 marker ++ beBytes 4 m.type) ++ (beBytes 4 fl ++
      (beBytes 4 m.msgNo ++ (beBytes 4 m.code ++ (beBytes 4 (hdrSz + p.length) ++ p)))) from by
        simp [whole, pre, List.append_assoc]]
    exact List.drop_left' (by simp [beBytes_length])
  rw [this, List.take_left' (beBytes_length _ _), beVal_beBytes _ _ h]

theorem whole_drop (m fl p) : (whole m fl p).drop hdrSz = p := by
  rw [whole, ← List.append_assoc]
  exact List.drop_left' (by simp [pre_length, beBytes_length, hdrSz])

theorem setRecLen_whole (m fl p q) (n : Nat) (hn : n = hdrSz + (p ++ q).length) :
    setRecLen (whole m fl p ++ q) n = whole m fl (p ++ q) := by
  rw [setRecLen, show whole m fl p ++ q = pre m fl ++ (beBytes 4 (hdrSz + p.length) ++ (p ++ q)) from by
    simp [whole, List.append_assoc], List.take_left' (pre_length m fl), ← List.append_assoc (pre m fl)
    (beBytes 4 (hdrSz + p.length)), List.drop_left' (by simp [pre_length, beBytes_length]), hn, whole]

theorem flagBits_lt (a b) : flagBits a b < 256 ^ 4 := by
  cases a <;> cases b <;> decide

theorem flagBits_som (a b) : (flagBits a b % 2 = 1) ↔ a = true := by
  cases a <;> cases b <;> decide

theorem flagBits_eom (a b) : decide (flagBits a b / 2 % 2 = 1) = b := by
  cases a <;> cases b <;> decide

theorem grow_ok (cap used n : Nat) (h : used ≤ cap) : used + n ≤ grow cap used n := by
  rw [grow]; split <;> omega

/-- gathering the first record -/
theorem gather_first (m : Msg) (cap : Nat) (r : Rec) (hs : r.som = true)
    (hl : hdrSz + r.payload.length < 256 ^ 4) :
    ∃ cap', hdrSz + r.payload.length ≤ cap' ∧ gather ⟨cap, []⟩ (encode m r) =
      some (⟨cap', whole m (flagBits r.som r.eom) r.payload⟩, r.eom) := by
  rw [encode_eq]
  have hsrc : src (whole m (flagBits r.som r.eom) r.payload) =
      whole m (flagBits r.som r.eom) r.payload := by
    rw [src, recFlags, whole_flags _ _ _ (flagBits_lt _ _), if_pos ((flagBits_som _ _).2 hs),
      recLen, whole_len _ _ _ hl, ← whole_length m (flagBits r.som r.eom), List.take_length]
  have hg := grow_ok cap 0 (whole m (flagBits r.som r.eom) r.payload).length (Nat.zero_le _)
  rw [gather, hsrc, if_pos (by simpa using hg)]
  refine ⟨grow cap 0 (whole m (flagBits r.som r.eom) r.payload).length, ?_, ?_⟩
  · rw [whole_length] at hg ⊢; omega
  · rw [recFlags, whole_flags _ _ _ (flagBits_lt _ _), flagBits_eom]
    have := setRecLen_whole m (flagBits r.som r.eom) r.payload []
      (whole m (flagBits r.som r.eom) r.payload).length (by rw [whole_length]; simp)
    rw [List.append_nil, List.append_nil] at this
    rw [List.nil_append, this]
    rfl

/-- gathering a further record -/
theorem gather_next (m : Msg) (fl cap : Nat) (p : List Nat) (r : Rec) (hs : r.som = false)
    (hl : hdrSz + r.payload.length < 256 ^ 4) (hcap : hdrSz + p.length ≤ cap) :
    ∃ cap', hdrSz + (p ++ r.payload).length ≤ cap' ∧
      gather ⟨cap, whole m fl p⟩ (encode m r) =
        some (⟨cap', whole m fl (p ++ r.payload)⟩, r.eom) := by
  rw [encode_eq]
  have hsrc : src (whole m (flagBits r.som r.eom) r.payload) = r.payload := by
    rw [src, recFlags, whole_flags _ _ _ (flagBits_lt _ _),
      if_neg (by rw [flagBits_som, hs]; simp), recLen, whole_len _ _ _ hl, whole_drop,
      show hdrSz + r.payload.length - hdrSz = r.payload.length from by omega, List.take_length]
  have hg := grow_ok cap (whole m fl p).length r.payload.length (by rw [whole_length]; exact hcap)
  rw [gather, hsrc, if_pos hg]
  refine ⟨grow cap (whole m fl p).length r.payload.length, ?_, ?_⟩
  · rw [whole_length] at hg; rw [List.length_append, whole_length]; omega
  · rw [recFlags, whole_flags _ _ _ (flagBits_lt _ _), flagBits_eom, setRecLen_whole _ _ _ _ _ (by
        rw [List.length_append, List.length_append, whole_length]; omega)]

/-- gathering the records after the first -/
theorem gatherAll_next (m : Msg) (fl : Nat) : ∀ rs p cap, (∀ r ∈ rs, r.som = false) →
    (∀ r ∈ rs, hdrSz + r.payload.length < 256 ^ 4) → hdrSz + p.length ≤ cap →
    ∃ cap', gatherAll ⟨cap, whole m fl p⟩ (rs.map (encode m)) =
      some (⟨cap', whole m fl (p ++ payloads rs)⟩, rs.map Rec.eom) := by
  intro rs
  induction rs with
  | nil => intro p cap _ _ _; exact ⟨cap, by simp [gatherAll, payloads]⟩
  | cons r rs ih =>
    intro p cap hs hl hc
    obtain ⟨cap', hc', hg⟩ := gather_next m fl cap p r (hs r (List.mem_cons_self ..))
      (hl r (List.mem_cons_self ..)) hc
    obtain ⟨cap'', hg'⟩ := ih (p ++ r.payload) cap' (fun x hx => hs x (List.mem_cons_of_mem _ hx))
      (fun x hx => hl x (List.mem_cons_of_mem _ hx)) hc'
    refine ⟨cap'', ?_⟩
    simp only [List.map_cons, gatherAll, hg, hg']
    simp [payloads, List.append_assoc]

/-- **C19, receiver.**  Gathering the records of a well-framed message, in order, into a new
buffer of any size never writes outside the buffer; every call but the last reports that more is
to come and the last reports completion; the result is one message with the type, number and code
of the records, whose length field is its length and whose payload is the message payload. -/
theorem msg_gather_framed (m : Msg) (limit : Nat) (rs : List Rec) (p : List Nat) (cap : Nat)
    (h : Framed limit rs p) (hlim : limit < 256 ^ 4) :
    ∃ cap' fl, gatherAll ⟨cap, []⟩ (rs.map (encode m)) =
      some (⟨cap', beBytes 4 marker ++ (beBytes 4 m.type ++ (beBytes 4 fl ++ (beBytes 4 m.msgNo ++
          (beBytes 4 m.code ++ (beBytes 4 (hdrSz + p.length) ++ p)))))⟩,
        List.replicate (rs.length - 1) false ++ [true]) := by
  have hfit : ∀ r ∈ rs, hdrSz + r.payload.length < 256 ^ 4 := by
    intro r hr
    have := h.fits m r hr
    rw [encode_length] at this; omega
  have heoms : rs.map Rec.eom = List.replicate (rs.length - 1) false ++ [true] := by
    have hpos : 0 < rs.length := List.length_pos_iff.2 h.nonempty
    apply List.ext_getElem
    · simp; omega
    · intro i h1 h2
      rw [List.length_map] at h1
      rw [List.getElem_map]
      by_cases hi : i < rs.length - 1
      · rw [List.getElem_append_left (by simpa using hi), List.getElem_replicate]
        have := h.eom_iff i h1
        cases hb : rs[i].eom
        · rfl
        · have := this.1 hb; omega
      · rw [List.getElem_append_right (by simpa using hi)]
        simp only [List.getElem_singleton]
        exact (h.eom_iff i h1).2 (by omega)
  rw [← heoms]
  match rs, h, hfit with
  | [], h, _ => exact absurd rfl h.nonempty
  | r :: rs, h, hfit =>
    have hs : r.som = true := (h.som_iff 0 (by simp)).2 rfl
    have hns : ∀ x ∈ rs, x.som = false := by
      intro x hx
      obtain ⟨i, hi, rfl⟩ := List.getElem_of_mem hx
      have := h.som_iff (i + 1) (by simpa using hi)
      simp only [List.getElem_cons_succ] at this
      cases hb : rs[i].som
      · rfl
      · have := this.1 hb; omega
    obtain ⟨c1, hc1, h1⟩ := gather_first m cap r hs (hfit r (List.mem_cons_self ..))
    obtain ⟨c2, h2⟩ := gatherAll_next m (flagBits r.som r.eom) rs r.payload c1 hns
      (fun x hx => hfit x (List.mem_cons_of_mem _ hx)) hc1
    refine ⟨c2, flagBits r.som r.eom, ?_⟩
    simp only [List.map_cons, gatherAll, h1, h2]
    have hp : r.payload ++ payloads rs = p := by
      rw [← h.content]; simp [payloads]
    rw [hp]
    simp [whole, pre, List.append_assoc]

/-- **C19, round trip.**  Whatever pieces a sender appends between start and end of message,
gathering the emitted records gives back one message whose payload is their concatenation. -/
theorem msg_round_trip (m : Msg) (len fuel cap : Nat) (hl : hdrSz < len) (hlim : len < 256 ^ 4)
    (b : Buf) (hb : b.len = len) (he : b.eom = false) (ds : List (List Nat)) (hne : ds ≠ [])
    (hf : ∀ d ∈ ds, 2 * d.length + 2 ≤ fuel) :
    ∃ rs g cs, sendAll fuel b (calls true ds) = some ({ len := len }, rs) ∧
      gatherAll ⟨cap, []⟩ (rs.map (encode m)) = some (g, cs) ∧
      g.bytes.drop hdrSz = ds.flatten ∧ g.bytes.length = hdrSz + ds.flatten.length ∧
      cs = List.replicate (rs.length - 1) false ++ [true] := by
  obtain ⟨rs, h1, h2⟩ := msg_send_framed len fuel hl b hb he ds hne hf
  obtain ⟨cap', fl, h3⟩ := msg_gather_framed m len rs _ cap h2 hlim
  refine ⟨rs, _, _, h1, h3, ?_, ?_, rfl⟩
  · have := whole_drop m fl ds.flatten
    simpa [whole, pre, List.append_assoc] using this
  · have := whole_length m fl ds.flatten
    simpa [whole, pre, List.append_assoc] using this

/-- three appends through a 28-byte buffer: three records, one message -/
example : (sendAll 40 { len := 28, data := [9], som := false }
      (calls true [[1, 2], [3, 4, 5, 6, 7], [8, 9, 10]])) =
    some ({ len := 28 }, [⟨true, false, [1, 2, 3, 4]⟩, ⟨false, false, [5, 6, 7, 8]⟩,
      ⟨false, true, [9, 10]⟩]) := by decide

/-- an empty append in the middle flushes a short record; the message is still whole -/
example : (sendAll 40 { len := 28 } (calls true [[1, 2], [], [3]])) =
    some ({ len := 28 }, [⟨true, false, [1, 2]⟩, ⟨false, true, [3]⟩]) := by decide

example : split 28 8 true [1, 2, 3, 4, 5, 6, 7] =
    some [⟨true, false, [1, 2, 3, 4]⟩, ⟨false, true, [5, 6, 7]⟩] := by decide

end Verif.MsgBuf
