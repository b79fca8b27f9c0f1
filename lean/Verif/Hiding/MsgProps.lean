import Verif.Hiding.PermProps
/-!
# C83: the message of one call of a permutation correlation
-/
namespace SecJoin

theorem byteAt_table {n W : Nat} (f : Nat → Nat → Byte) {i j : Nat} (hi : i < n) (hj : j < W) :
    SecJoin.byteAt ((List.range n).map fun i => (List.range W).map fun j => f i j) i j = f i j := by
  simp [SecJoin.byteAt, List.getD_eq_getElem?_getD, hi, hj]

theorem table_shape {n W : Nat} (f : Nat → Nat → Byte) : Shape n W ((List.range n).map fun i => (List.range W).map fun j => f i j) := by
  refine ⟨by simp, ?_⟩
  intro r hr
  obtain ⟨i, -, rfl⟩ := List.mem_map.1 hr
  simp

/-- For every mask there is a receiver side that fits. -/
theorem exists_receiver {n W off : Nat} {s : PermCorSender} {r : PermCorReceiver} (h : CorInv n W off s r) (op : PermOp) {M : List Row}
    (hM : Shape n W M) : ∃ r', CorInv n W off s r' ∧ maskOf op r' = M := by
  have hb : ∀ x ∈ s.perm.pi, x < n := by rw [← h.len]; exact h.perm.1
  cases op with
  | regular =>
    have hg := gather_shape hM hb h.len
    refine ⟨⟨r.cols, M, xm s.delta (gather s.perm.pi M), off⟩,
      { perm := h.perm, len := h.len, scols := h.scols, rcols := h.rcols, soff := h.soff, roff := rfl, le := h.le, delta := h.delta,
        a := hM, b := xm_shape h.delta hg, cor := xm_cancel h.delta hg }, rfl⟩
  | inverse =>
    have hx := xm_shape h.delta hM
    have hg : Shape n W (gather (invList s.perm.pi) (xm s.delta M)) := permRows_shape (op := .inverse) h.perm h.len hx
    refine ⟨⟨r.cols, gather (invList s.perm.pi) (xm s.delta M), M, off⟩,
      { perm := h.perm, len := h.len, scols := h.scols, rcols := h.rcols, soff := h.soff, roff := rfl, le := h.le, delta := h.delta,
        a := hg, b := hM, cor := ((gather_cancel h.perm (by rw [hx.1, h.len])).2).symm }, rfl⟩

/-- The mask fixes the receiver side. -/
theorem receiver_unique {n W off : Nat} {s : PermCorSender} {r r' : PermCorReceiver} (h : CorInv n W off s r) (h' : CorInv n W off s r')
    (op : PermOp) (e : maskOf op r = maskOf op r') : r = r' := by
  have hc : r.cols = r'.cols := by have := h.rcols; have := h'.rcols; omega
  have ho : r.off = r'.off := by rw [h.roff, h'.roff]
  have key : r.a = r'.a ∧ r.b = r'.b := by
    cases op with
    | regular =>
      refine ⟨e, ?_⟩
      have e1 := h.cor
      have e2 := h'.cor
      simp only [maskOf] at e
      rw [← e, ← e1] at e2
      rw [← xm_cancel h.delta h.b, ← xm_cancel h.delta h'.b, e2]
    | inverse =>
      refine ⟨?_, e⟩
      have e1 := h.cor
      have e2 := h'.cor
      simp only [maskOf] at e
      rw [← e, e1] at e2
      rw [← (gather_cancel h.perm (x := r.a) (by rw [h.a.1, h.len])).1, e2, (gather_cancel h.perm (by rw [h'.a.1, h.len])).1]
  obtain ⟨c, a, b, o⟩ := r
  obtain ⟨c', a', b', o'⟩ := r'
  simp only at hc ho key
  rw [hc, ho, key.1, key.2]

/-- The unused bytes of the receiver side agree. -/
theorem masks_outside {n W off : Nat} {s : PermCorSender} {r r' : PermCorReceiver} (h : CorInv n W off s r) (h' : CorInv n W off s r')
    (op : PermOp) {P : Nat → Prop} :
    (∀ i < n, ∀ j < W, P j → SecJoin.byteAt r'.b i j = SecJoin.byteAt r.b i j) ↔
      ∀ i < n, ∀ j < W, P j → SecJoin.byteAt (maskOf op r') i j = SecJoin.byteAt (maskOf op r) i j := by
  cases op with
  | inverse => exact Iff.rfl
  | regular =>
    have c := (validCor_iff.2 h).cor
    have c' := (validCor_iff.2 h').cor
    simp only [maskOf]
    constructor
    · intro hb i hi j hj hP
      have hi' : i < (invList s.perm.pi).length := by rw [invList_length, h.len]; exact hi
      obtain ⟨k, hk, rfl⟩ : ∃ k < n, s.perm.pi.getD k 0 = i := by
        have hm : i ∈ s.perm.pi := by
          have := (isPermList_iff_perm.1 h.perm).mem_iff (a := i)
          rw [this, List.mem_range, h.len]; exact hi
        obtain ⟨k, hk, e⟩ := List.mem_iff_getElem.1 hm
        exact ⟨k, by rw [← h.len]; exact hk, by rw [List.getD_eq_getElem?_getD, List.getElem?_eq_getElem hk]; exact e⟩
      rw [← c k hk j hj, ← c' k hk j hj, hb k hk j hj hP]
    · intro ha i hi j hj hP
      have hlt : s.perm.pi.getD i 0 < n := by
        have hi' : i < s.perm.pi.length := by rw [h.len]; exact hi
        rw [List.getD_eq_getElem?_getD, List.getElem?_eq_getElem hi']
        have := h.perm.1 _ (List.getElem_mem hi')
        rw [h.len] at this
        exact this
      have e1 := c i hi j hj
      have e2 := c' i hi j hj
      rw [ha _ hlt j hj hP, ← e1] at e2
      have := congrArg (SecJoin.byteAt s.delta i j ^^^ ·) e2
      simp only [← BitVec.xor_assoc, BitVec.xor_self, BitVec.zero_xor] at this
      exact this

/-- For every message there is exactly one receiver side that gives it and agrees with the given one outside of the bytes used. -/
theorem receiver_fit {n W off : Nat} {s : PermCorSender} {r : PermCorReceiver} (h : CorInv n W off s r) (op : PermOp) {c : Nat}
    {x' m : List Row} (hx' : Shape n c x') (hm : Shape n c m) (hW : off + c ≤ W) :
    ∃ r', CorInv n W off s r' ∧
      (∀ i < n, ∀ j < W, (j < off ∨ off + c ≤ j) → SecJoin.byteAt r'.b i j = SecJoin.byteAt r.b i j) ∧
      xm (sl off c (maskOf op r')) x' = m := by
  obtain ⟨M, eM⟩ : ∃ M : List Row, M = (List.range n).map fun i => (List.range W).map fun j =>
      if off ≤ j ∧ j < off + c then SecJoin.byteAt m i (j - off) ^^^ SecJoin.byteAt x' i (j - off) else SecJoin.byteAt (maskOf op r) i j := ⟨_, rfl⟩
  have hM : Shape n W M := by rw [eM]; exact table_shape _
  have bM : ∀ i < n, ∀ j < W, SecJoin.byteAt M i j = if off ≤ j ∧ j < off + c then
      SecJoin.byteAt m i (j - off) ^^^ SecJoin.byteAt x' i (j - off) else SecJoin.byteAt (maskOf op r) i j := by
    intro i hi j hj
    rw [eM, byteAt_table _ hi hj]
  obtain ⟨r', h', er⟩ := exists_receiver h op hM
  have s2 := maskOf_shape h' op
  have sm := sl_shape s2 hW
  refine ⟨r', h', (masks_outside h h' op).2 ?_, ?_⟩
  · intro i hi j hj hP
    rw [er, bM i hi j hj, if_neg (by omega)]
  · apply byteAt_ext (xm_shape sm hx') hm
    intro i hi j hj
    rw [byteAt_xm sm hx' hi hj, byteAt_sl s2 hi hj, er, bM i hi _ (by omega), if_pos (by omega), Nat.add_sub_cancel_left,
      BitVec.xor_assoc, BitVec.xor_self, BitVec.xor_zero]

/-- What the sender of the correlation sees of a list of calls: the messages and its own results. -/
def seen (outs : List CallOut) : List (Mat Row × Mat Row) := outs.map fun o => (o.msg, o.sout)

/-- The same calls but for the inputs of the receiver. -/
def SameCalls (calls calls' : List Call) : Prop :=
  calls'.map (fun c => (c.op, c.xs, c.xr.cols)) = calls.map fun c => (c.op, c.xs, c.xr.cols)

/-- Both runs succeed and the sender sees the same and ends in the same state. -/
def SameView (s : PermCorSender) (r r' : PermCorReceiver) (calls calls' : List Call) : Prop :=
  ∃ s' r1 outs r1' outs', runCalls s r calls = .ok (s', r1, outs) ∧ runCalls s r' calls' = .ok (s', r1', outs') ∧ seen outs' = seen outs

/-- The result of one call: the sender's part is a function of the message. -/
theorem applyBoth_fun {n W off : Nat} {s : PermCorSender} (hn : 0 < n) (op : PermOp) {c : Nat} {xs : Option (Mat Row)}
    (hxs : ∀ y, xs = some y → Shape n c y.rows ∧ y.cols = c) (hW : off + c ≤ W) :
    ∃ f : List Row → Mat Row, ∀ r, CorInv n W off s r → ∀ z, Shape n c z → ∃ rout,
      applyBoth s r op ⟨c, z⟩ xs = .ok ({ s with off := off + c }, { r with off := off + c }, ⟨c, xm (sl off c (maskOf op r)) z⟩,
        f (xm (sl off c (maskOf op r)) z), rout) := by
  obtain ⟨F, hF⟩ : ∃ F : List Row → Res (PermCorSender × Mat Row), F = fun m => match xs with
    | none => s.applyRemote op n c ⟨c, m⟩
    | some x => s.apply op x n c ⟨c, m⟩ := ⟨_, rfl⟩
  refine ⟨fun m => match F m with | .ok v => v.2 | .error _ => ⟨0, []⟩, ?_⟩
  intro r h z hz
  obtain ⟨sout, rout, e, -⟩ := applyBoth_ok h hn (op := op) (x := ⟨c, z⟩) (xs := xs) hz hxs hW
  refine ⟨⟨c, rout⟩, ?_⟩
  rw [e]
  have hr := receiver_apply_ok h hn (op := op) (x := ⟨c, z⟩) hz hW
  simp only [hz.1] at hr
  have k : F (xm (sl off c (maskOf op r)) z) = .ok ({ s with off := off + c }, ⟨c, sout⟩) := by
    rw [hF]
    cases xs with
    | none =>
      simp only [applyBoth, hz.1, hr, ok_bind] at e ⊢
      cases k : s.applyRemote op n c ⟨c, xm (sl off c (maskOf op r)) z⟩ with
      | error er => rw [k] at e; exact absurd e (by simp [bind, Except.bind])
      | ok v =>
        rw [k] at e
        simp only [ok_bind, Except.ok.injEq, Prod.mk.injEq] at e
        rw [← e.1, ← e.2.2.2.1]
    | some y =>
      simp only [applyBoth, hz.1, hr, ok_bind] at e ⊢
      cases k : s.apply op y n c ⟨c, xm (sl off c (maskOf op r)) z⟩ with
      | error er => rw [k] at e; exact absurd e (by simp [bind, Except.bind])
      | ok v =>
        rw [k] at e
        simp only [ok_bind, Except.ok.injEq, Prod.mk.injEq] at e
        rw [← e.1, ← e.2.2.2.1]
  simp only [k]

/-- Seeing the same is having the same messages, call by call. -/
theorem sameView_cons {n W off : Nat} {s : PermCorSender} {r r' : PermCorReceiver} (h : CorInv n W off s r) (h' : CorInv n W off s r')
    (hn : 0 < n) {c c' : Call} {cs cs' : List Call} (hc : c.Ok n) (hc' : c'.Ok n) (eo : c'.op = c.op) (ex : c'.xs = c.xs)
    (ec : c'.xr.cols = c.xr.cols) (hW : off + c.xr.cols ≤ W) :
    SameView s r r' (c :: cs) (c' :: cs') ↔
      xm (sl off c.xr.cols (maskOf c.op r')) c'.xr.rows = xm (sl off c.xr.cols (maskOf c.op r)) c.xr.rows ∧
      SameView { s with off := off + c.xr.cols } { r with off := off + c.xr.cols } { r' with off := off + c.xr.cols } cs cs' := by
  obtain ⟨op, ⟨w, x⟩, xs⟩ := c
  obtain ⟨op', ⟨w', x'⟩, xs'⟩ := c'
  simp only at eo ex ec hW
  subst eo ex ec
  obtain ⟨f, hf⟩ := applyBoth_fun (s := s) hn op' hc.2 hW
  obtain ⟨ro, e⟩ := hf r h x hc.1
  obtain ⟨ro', e'⟩ := hf r' h' x' hc'.1
  simp only at e e' ⊢
  constructor
  · rintro ⟨s', r1, outs, r1', outs', e1, e2, hs⟩
    simp only [runCalls, e, ok_bind] at e1
    simp only [runCalls, e', ok_bind] at e2
    cases k : runCalls { s with off := off + w' } { r with off := off + w' } cs with
    | error er => rw [k] at e1; exact absurd e1 (by simp [bind, Except.bind])
    | ok v =>
      cases k' : runCalls { s with off := off + w' } { r' with off := off + w' } cs' with
      | error er => rw [k'] at e2; exact absurd e2 (by simp [bind, Except.bind])
      | ok v' =>
        rw [k] at e1
        rw [k'] at e2
        simp only [ok_bind, Except.ok.injEq, Prod.mk.injEq] at e1 e2
        obtain ⟨a1, a2, a3⟩ := e1
        obtain ⟨b1, b2, b3⟩ := e2
        rw [← a3, ← b3] at hs
        simp only [seen, List.map_cons, List.cons.injEq, Prod.mk.injEq, Mat.mk.injEq] at hs
        refine ⟨hs.1.1.2, s', v.2.1, v.2.2, v'.2.1, v'.2.2, ?_, ?_, hs.2⟩
        · rw [k, ← a1]
        · rw [k', ← b1]
  · rintro ⟨em, s', r1, outs, r1', outs', e1, e2, hs⟩
    rw [em] at e'
    refine ⟨s', r1, ⟨⟨w', xm (sl off w' (maskOf op' r)) x⟩, f (xm (sl off w' (maskOf op' r)) x), ro⟩ :: outs, r1',
      ⟨⟨w', xm (sl off w' (maskOf op' r)) x⟩, f (xm (sl off w' (maskOf op' r)) x), ro'⟩ :: outs', ?_, ?_, ?_⟩
    · simp only [runCalls, e, ok_bind, e1]
    · simp only [runCalls, e', ok_bind, e2]
    · simp only [seen, List.map_cons] at hs ⊢
      rw [hs]

/-- Masks from equal bytes. -/
theorem mask_slice {n W off c : Nat} {s : PermCorSender} {r r' : PermCorReceiver} (h : CorInv n W off s r) (h' : CorInv n W off s r')
    (op : PermOp) (hW : off + c ≤ W) :
    sl off c (maskOf op r') = sl off c (maskOf op r) ↔
      ∀ i < n, ∀ j < W, (off ≤ j ∧ j < off + c) → SecJoin.byteAt r'.b i j = SecJoin.byteAt r.b i j := by
  rw [masks_outside h h' op]
  have s1 := maskOf_shape h op
  have s2 := maskOf_shape h' op
  constructor
  · intro e i hi j hj hP
    have := congrArg (fun m => SecJoin.byteAt m i (j - off)) e
    rw [byteAt_sl s2 hi (by omega), byteAt_sl s1 hi (by omega)] at this
    rw [show off + (j - off) = j by omega] at this
    exact this
  · intro hb
    apply byteAt_ext (sl_shape s2 hW) (sl_shape s1 hW)
    intro i hi j hj
    rw [byteAt_sl s2 hi hj, byteAt_sl s1 hi hj]
    exact hb i hi _ (by omega) (by omega)

/-- The bytes used before do not matter. -/
theorem sameView_congr {n W : Nat} (hn : 0 < n) (calls calls' : List Call) : ∀ {off : Nat} {s : PermCorSender} {r r' r2 : PermCorReceiver},
    CorInv n W off s r → CorInv n W off s r' → CorInv n W off s r2 →
    (∀ c ∈ calls, c.Ok n) → (∀ c ∈ calls', c.Ok n) → SameCalls calls calls' → off + bytesUsed calls ≤ W →
    (∀ i < n, ∀ j < W, off ≤ j → SecJoin.byteAt r2.b i j = SecJoin.byteAt r'.b i j) →
    SameView s r r' calls calls' → SameView s r r2 calls calls' := by
  induction calls generalizing calls' with
  | nil =>
    intro off s r r' r2 _ _ _ _ _ hs _ _ hv
    cases calls' with
    | nil => exact ⟨s, r, [], r2, [], rfl, rfl, rfl⟩
    | cons c cs => simp [SameCalls] at hs
  | cons c cs ih =>
    intro off s r r' r2 h h' h2 hc hc' hs hW hb hv
    cases calls' with
    | nil => simp [SameCalls] at hs
    | cons c' cs' =>
      simp only [SameCalls, List.map_cons, List.cons.injEq, Prod.mk.injEq] at hs
      have hcost : bytesUsed (c :: cs) = c.xr.cols + bytesUsed cs := by simp [bytesUsed]
      rw [hcost] at hW
      rw [sameView_cons h h' hn (hc c (by simp)) (hc' c' (by simp)) hs.1.1 hs.1.2.1 hs.1.2.2 (by omega)] at hv
      rw [sameView_cons h h2 hn (hc c (by simp)) (hc' c' (by simp)) hs.1.1 hs.1.2.1 hs.1.2.2 (by omega)]
      refine ⟨?_, ih cs' (h.step (by omega)) (h'.step (by omega)) (h2.step (by omega)) (fun d hd => hc d (by simp [hd]))
        (fun d hd => hc' d (by simp [hd])) hs.2 (by omega) (fun i hi j hj hP => hb i hi j hj (by omega)) hv.2⟩
      rw [(mask_slice h' h2 c.op (by omega)).2 fun i hi j hj hP => hb i hi j hj hP.1]
      exact hv.1

/-- Existence. -/
theorem sameView_exists {n W : Nat} (hn : 0 < n) (calls calls' : List Call) : ∀ {off : Nat} {s : PermCorSender} {r : PermCorReceiver},
    CorInv n W off s r → (∀ c ∈ calls, c.Ok n) → (∀ c ∈ calls', c.Ok n) → SameCalls calls calls' → off + bytesUsed calls ≤ W →
    ∃ r', CorInv n W off s r' ∧
      (∀ i < n, ∀ j < W, (j < off ∨ off + bytesUsed calls ≤ j) → SecJoin.byteAt r'.b i j = SecJoin.byteAt r.b i j) ∧
      SameView s r r' calls calls' := by
  induction calls generalizing calls' with
  | nil =>
    intro off s r h _ _ hs _
    cases calls' with
    | nil => exact ⟨r, h, fun _ _ _ _ _ => rfl, s, r, [], r, [], rfl, rfl, rfl⟩
    | cons c cs => simp [SameCalls] at hs
  | cons c cs ih =>
    intro off s r h hc hc' hs hW
    cases calls' with
    | nil => simp [SameCalls] at hs
    | cons c' cs' =>
      simp only [SameCalls, List.map_cons, List.cons.injEq, Prod.mk.injEq] at hs
      have hcost : bytesUsed (c :: cs) = c.xr.cols + bytesUsed cs := by simp [bytesUsed]
      rw [hcost] at hW ⊢
      have ok := hc c (by simp)
      have ok' := hc' c' (by simp)
      obtain ⟨ρ, hρ, bρ, vρ⟩ := ih cs' (h.step (c := c.xr.cols) (by omega)) (fun d hd => hc d (by simp [hd]))
        (fun d hd => hc' d (by simp [hd])) hs.2 (by omega)
      have hρ0 : CorInv n W off s { ρ with off := off } :=
        { perm := h.perm, len := h.len, scols := h.scols, rcols := hρ.rcols, soff := h.soff, roff := rfl, le := h.le, delta := h.delta,
          a := hρ.a, b := hρ.b, cor := hρ.cor }
      obtain ⟨r', h', b', e'⟩ := receiver_fit hρ0 c.op (c := c.xr.cols) (x' := c'.xr.rows) (m := xm (sl off c.xr.cols (maskOf c.op r)) c.xr.rows)
        (by rw [← hs.1.2.2]; exact ok'.1) (xm_shape (sl_shape (maskOf_shape h c.op) (by omega)) ok.1) (by omega)
      refine ⟨r', h', ?_, ?_⟩
      · intro i hi j hj hP
        rw [b' i hi j hj (by omega)]
        exact bρ i hi j hj (by omega)
      · rw [sameView_cons h h' hn ok ok' hs.1.1 hs.1.2.1 hs.1.2.2 (by omega)]
        refine ⟨e', sameView_congr hn cs cs' (h.step (by omega)) hρ (h'.step (by omega)) (fun d hd => hc d (by simp [hd]))
          (fun d hd => hc' d (by simp [hd])) hs.2 (by omega) ?_ vρ⟩
        intro i hi j hj hP
        exact b' i hi j hj (by omega)

/-- Uniqueness. -/
theorem sameView_unique {n W : Nat} (hn : 0 < n) (calls calls' : List Call) : ∀ {off : Nat} {s : PermCorSender} {r r' r2 : PermCorReceiver},
    CorInv n W off s r → CorInv n W off s r' → CorInv n W off s r2 →
    (∀ c ∈ calls, c.Ok n) → (∀ c ∈ calls', c.Ok n) → SameCalls calls calls' → off + bytesUsed calls ≤ W →
    SameView s r r' calls calls' → SameView s r r2 calls calls' →
    ∀ i < n, ∀ j < W, (off ≤ j ∧ j < off + bytesUsed calls) → SecJoin.byteAt r2.b i j = SecJoin.byteAt r'.b i j := by
  induction calls generalizing calls' with
  | nil =>
    intro off s r r' r2 _ _ _ _ _ _ _ _ _ i hi j hj hP
    simp [bytesUsed] at hP
    omega
  | cons c cs ih =>
    intro off s r r' r2 h h' h2 hc hc' hs hW v' v2 i hi j hj hP
    cases calls' with
    | nil => simp [SameCalls] at hs
    | cons c' cs' =>
      simp only [SameCalls, List.map_cons, List.cons.injEq, Prod.mk.injEq] at hs
      have hcost : bytesUsed (c :: cs) = c.xr.cols + bytesUsed cs := by simp [bytesUsed]
      rw [hcost] at hW hP
      have ok' := hc' c' (by simp)
      rw [sameView_cons h h' hn (hc c (by simp)) ok' hs.1.1 hs.1.2.1 hs.1.2.2 (by omega)] at v'
      rw [sameView_cons h h2 hn (hc c (by simp)) ok' hs.1.1 hs.1.2.1 hs.1.2.2 (by omega)] at v2
      by_cases hj2 : j < off + c.xr.cols
      · refine (mask_slice h' h2 c.op (c := c.xr.cols) (by omega)).1 ?_ i hi j hj ⟨hP.1, hj2⟩
        have e := v2.1.trans v'.1.symm
        have sx : Shape n c.xr.cols c'.xr.rows := by rw [← hs.1.2.2]; exact ok'.1
        rw [xm_comm _ c'.xr.rows, xm_comm _ c'.xr.rows] at e
        have := congrArg (xm c'.xr.rows) e
        rw [xm_cancel sx (sl_shape (maskOf_shape h2 c.op) (by omega)), xm_cancel sx (sl_shape (maskOf_shape h' c.op) (by omega))] at this
        exact this
      · exact ih cs' (h.step (by omega)) (h'.step (by omega)) (h2.step (by omega)) (fun d hd => hc d (by simp [hd]))
          (fun d hd => hc' d (by simp [hd])) hs.2 (by omega) v'.2 v2.2 i hi j hj (by omega)

/-- C83, permuting: the receiver of the correlation holds the inputs of a list of calls, the other party the permutation (and maybe inputs of its
own). Whatever other inputs the receiver holds, exactly one receiver side of the correlation that agrees outside of the bytes used by these calls
shows the other party the same messages and results. So all the messages together say nothing about the inputs of the receiver. -/
theorem C83_message {n W off : Nat} {s : PermCorSender} {r : PermCorReceiver} (hv : ValidCor n W off s r) (hn : 0 < n)
    {calls calls' : List Call} (hc : ∀ c ∈ calls, c.Ok n) (hc' : ∀ c ∈ calls', c.Ok n)
    (hs : calls'.map (fun c => (c.op, c.xs, c.xr.cols)) = calls.map fun c => (c.op, c.xs, c.xr.cols)) (hW : off + bytesUsed calls ≤ W) :
    ∃ s1 r1 outs, runCalls s r calls = .ok (s1, r1, outs) ∧
      ∃! r', ValidCor n W off s r' ∧
        (∀ i < n, ∀ j < W, (j < off ∨ off + bytesUsed calls ≤ j) → SecJoin.byteAt r'.b i j = SecJoin.byteAt r.b i j) ∧
        ∃ r1' outs', runCalls s r' calls' = .ok (s1, r1', outs') ∧
          outs'.map (fun o => (o.msg, o.sout)) = outs.map fun o => (o.msg, o.sout) := by
  have h := validCor_iff.1 hv
  obtain ⟨r', h', b', hw⟩ := sameView_exists hn calls calls' h hc hc' hs hW
  obtain ⟨s1, r1, outs, r1', outs', e, e', hs'⟩ := id hw
  refine ⟨s1, r1, outs, e, r', ⟨validCor_iff.2 h', b', r1', outs', e', hs'⟩, ?_⟩
  rintro r2 ⟨v2, b2, q1, qs, k, hk⟩
  have h2 := validCor_iff.1 v2
  have u := sameView_unique hn calls calls' h h' h2 hc hc' hs hW hw ⟨s1, r1, outs, q1, qs, e, k, hk⟩
  apply receiver_unique h2 h' .inverse
  apply byteAt_ext (maskOf_shape h2 .inverse) (maskOf_shape h' .inverse)
  intro i hi j hj
  by_cases hP : off ≤ j ∧ j < off + bytesUsed calls
  · exact u i hi j hj hP
  · exact (b2 i hi j hj (by omega)).trans (b' i hi j hj (by omega)).symm

/-- The correlation of the example of C05 used for two calls, on two lists of inputs. -/
example : let calls : List Call := [⟨.inverse, ⟨2, [[1, 2], [3, 4], [5, 6]]⟩, none⟩, ⟨.regular, ⟨1, [[7], [8], [9]]⟩, some ⟨1, [[1], [1], [0]]⟩⟩]
    let calls' : List Call := [⟨.inverse, ⟨2, [[9, 9], [3, 4], [0, 255]]⟩, none⟩, ⟨.regular, ⟨1, [[0], [0], [0]]⟩, some ⟨1, [[1], [1], [0]]⟩⟩]
    ∃ s r s1 r1 outs r' r1' outs', ValidCor 3 16 0 s r ∧ ValidCor 3 16 0 s r' ∧ runCalls s r calls = .ok (s1, r1, outs) ∧
      runCalls s r' calls' = .ok (s1, r1', outs') ∧ outs'.map (fun o => (o.msg, o.sout)) = outs.map fun o => (o.msg, o.sout) := by
  intro calls calls'
  obtain ⟨s, r, -, h⟩ := exCor
  have ok : ∀ c ∈ calls ++ calls', c.Ok 3 := by
    intro c hc
    simp only [calls, calls', List.cons_append, List.nil_append, List.mem_cons, List.not_mem_nil, or_false] at hc
    rcases hc with rfl | rfl | rfl | rfl
    · exact ⟨⟨rfl, by decide⟩, by simp⟩
    · exact ⟨⟨rfl, by decide⟩, by intro y hy; simp at hy; subst hy; exact ⟨⟨rfl, by decide⟩, rfl⟩⟩
    · exact ⟨⟨rfl, by decide⟩, by simp⟩
    · exact ⟨⟨rfl, by decide⟩, by intro y hy; simp at hy; subst hy; exact ⟨⟨rfl, by decide⟩, rfl⟩⟩
  obtain ⟨s1, r1, outs, e, r', ⟨h', -, r1', outs', e', k⟩, -⟩ := C83_message h (by decide) (calls := calls) (calls' := calls')
    (fun c hc => ok c (by simp [hc])) (fun c hc => ok c (by simp [hc])) rfl (by decide)
  exact ⟨s, r, s1, r1, outs, r', r1', outs', h, h', e, e', k⟩

end SecJoin
