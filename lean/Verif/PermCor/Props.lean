import Verif.Perm.Props
import Verif.PermCor.Composed
/-!
# C05 - C08: permutation correlations, composed permutations

Specification, byte by byte: `byteAt m i j` is byte `j` of row `i`.
-/
namespace SecJoin

/-- `Δ ^ B = π(A)` for all bytes, all matrices of `n` rows of `W` bytes, and both parties have used
the first `off` bytes of every row. -/
structure ValidCor (n W off : Nat) (s : PermCorSender) (r : PermCorReceiver) : Prop where
  bij : IsBijection s.perm.pi
  len : s.perm.pi.length = n
  width : s.cols * 16 = W ∧ r.cols * 16 = W
  offset : s.off = off ∧ r.off = off ∧ off ≤ W
  shape : Shape n W s.delta ∧ Shape n W r.a ∧ Shape n W r.b
  cor : ∀ i, i < n → ∀ j, j < W →
    byteAt s.delta i j ^^^ byteAt r.b i j = byteAt r.a (s.perm.pi.getD i 0) j

theorem validCor_iff {n W off : Nat} {s : PermCorSender} {r : PermCorReceiver} :
    ValidCor n W off s r ↔ CorInv n W off s r := by
  constructor
  · intro h
    have hp := (isBijection_iff _).mp h.bij
    have hpb : ∀ x ∈ s.perm.pi, x < n := by rw [← h.len]; exact hp.1
    refine ⟨hp, h.len, h.width.1, h.width.2, h.offset.1, h.offset.2.1, h.offset.2.2, h.shape.1,
      h.shape.2.1, h.shape.2.2, ?_⟩
    apply byteAt_ext (xm_shape h.shape.1 h.shape.2.2) (gather_shape h.shape.2.1 hpb h.len)
    intro i hi j hj
    rw [byteAt_xm h.shape.1 h.shape.2.2 hi hj, h.cor i hi j hj,
      byteAt_gather (by rw [h.shape.2.1.1]; exact hpb) (by rw [h.len]; exact hi)]
  · intro h
    have hpb : ∀ x ∈ s.perm.pi, x < n := by rw [← h.len]; exact h.perm.1
    refine ⟨(isBijection_iff _).mpr h.perm, h.len, ⟨h.scols, h.rcols⟩, ⟨h.soff, h.roff, h.le⟩,
      ⟨h.delta, h.a, h.b⟩, ?_⟩
    intro i hi j hj
    rw [← byteAt_xm h.delta h.b hi hj, h.cor,
      byteAt_gather (by rw [h.a.1]; exact hpb) (by rw [h.len]; exact hi)]

/-- `out` is `inp` with its rows moved by `pi` (row `i` of the output is row `pi i` of the input), or
by the inverse of `pi`. -/
def Permuted (op : PermOp) (pi : List Nat) (n c : Nat) (inp out : Nat → Nat → Byte) : Prop :=
  ∀ i, i < n → ∀ j, j < c →
    match op with
    | .regular => out i j = inp (pi.getD i 0) j
    | .inverse => out (pi.getD i 0) j = inp i j

theorem permuted_of_xm {n c : Nat} {op : PermOp} {pi : List Nat} {o1 o2 x : List Row}
    (hp : IsPermList pi) (hl : pi.length = n) (h1 : Shape n c o1) (h2 : Shape n c o2)
    (hx : Shape n c x) (h : xm o1 o2 = permRows op pi x) :
    Permuted op pi n c (byteAt x) (fun i j => byteAt o1 i j ^^^ byteAt o2 i j) := by
  intro i hi j hj
  cases op with
  | regular =>
    simp only
    rw [← byteAt_xm h1 h2 hi hj, h, byteAt_permRows_regular hp hl hx hi]
  | inverse =>
    simp only
    have hlt : pi.getD i 0 < n := by
      have hi' : i < pi.length := by omega
      rw [List.getD_eq_getElem?_getD, List.getElem?_eq_getElem hi']
      have := hp.1 _ (List.getElem_mem hi')
      simpa [hl] using this
    rw [← byteAt_xm h1 h2 hlt hj, h, byteAt_permRows_inverse hp hl hx hi]

/-! ## C05 -/

/-- One call of `apply` of both parties: the receiver's share `xr` of the input and the sender's
share `xs` (`none`: the receiver holds the input alone). -/
structure Call where
  op : PermOp
  xr : Mat Row
  xs : Option (Mat Row)

/-- What a call produces: the message and the output shares of the sender and the receiver. -/
structure CallOut where
  msg : Mat Row
  sout : Mat Row
  rout : Mat Row

/-- A sequence of calls on the same pair of states. -/
def runCalls (s : PermCorSender) (r : PermCorReceiver) :
    List Call → Res (PermCorSender × PermCorReceiver × List CallOut)
  | [] => .ok (s, r, [])
  | c :: cs => do
    let (s, r, msg, sout, rout) ← applyBoth s r c.op c.xr c.xs
    let (s, r, outs) ← runCalls s r cs
    .ok (s, r, ⟨msg, sout, rout⟩ :: outs)

/-- The inputs of the call are matrices of `n` rows. -/
def Call.Ok (n : Nat) (c : Call) : Prop :=
  Shape n c.xr.cols c.xr.rows ∧ ∀ y, c.xs = some y → Shape n c.xr.cols y.rows ∧ y.cols = c.xr.cols

/-- The reconstructed input of a call. -/
def Call.input (c : Call) (i j : Nat) : Byte :=
  match c.xs with
  | none => byteAt c.xr.rows i j
  | some y => byteAt c.xr.rows i j ^^^ byteAt y.rows i j

/-- Bytes per row that a list of calls uses. -/
def bytesUsed (cs : List Call) : Nat := (cs.map (fun c => c.xr.cols)).sum

/-- C05: starting from a valid correlation of `W` bytes per row of which `off` are used, every
history of calls that fits into the remaining bytes succeeds. The outputs of call `k` XOR to its
permuted input; its message is masked by the bytes `off + (bytes of the earlier calls) ..` of the
correlation, so no byte is used twice; the correlation is again valid with the used bytes added. -/
theorem C05_history {n W off : Nat} {s : PermCorSender} {r : PermCorReceiver}
    (hv : ValidCor n W off s r) (hn : 0 < n) (calls : List Call) (hc : ∀ c ∈ calls, c.Ok n)
    (hW : off + bytesUsed calls ≤ W) :
    ∃ s' r' outs, runCalls s r calls = .ok (s', r', outs) ∧
      ValidCor n W (off + bytesUsed calls) s' r' ∧ s'.perm = s.perm ∧
      outs.length = calls.length ∧
      ∀ k (h1 : k < calls.length) (h2 : k < outs.length),
        outs[k].sout.cols = calls[k].xr.cols ∧ outs[k].rout.cols = calls[k].xr.cols ∧
        Shape n calls[k].xr.cols outs[k].sout.rows ∧ Shape n calls[k].xr.cols outs[k].rout.rows ∧
        Permuted calls[k].op s.perm.pi n calls[k].xr.cols calls[k].input
          (fun i j => byteAt outs[k].sout.rows i j ^^^ byteAt outs[k].rout.rows i j) ∧
        ∀ i, i < n → ∀ j, j < calls[k].xr.cols →
          byteAt outs[k].msg.rows i j = byteAt calls[k].xr.rows i j ^^^
            byteAt (match calls[k].op with | .regular => r.a | .inverse => r.b) i
              (off + bytesUsed (calls.take k) + j) := by
  induction calls generalizing s r off with
  | nil =>
    refine ⟨s, r, [], rfl, by simpa [bytesUsed] using hv, rfl, rfl, ?_⟩
    intro k h1; simp at h1
  | cons c cs ih =>
    have hinv := validCor_iff.mp hv
    have hck := hc c (by simp)
    have hcost : bytesUsed (c :: cs) = c.xr.cols + bytesUsed cs := by simp [bytesUsed]
    rw [hcost] at hW
    obtain ⟨sout, rout, e, sh1, sh2, hx⟩ := applyBoth_ok hinv hn (op := c.op) (x := c.xr)
      (xs := c.xs) hck.1 hck.2 (by omega)
    obtain ⟨s', r', outs, e2, hv', hp', hl', hall⟩ := ih
      (validCor_iff.mpr (hinv.step (c := c.xr.cols) (by omega)))
      (fun c hc' => hc c (by simp [hc'])) (by omega)
    refine ⟨s', r', ⟨⟨c.xr.cols, xm (sl off c.xr.cols (maskOf c.op r)) c.xr.rows⟩,
      ⟨c.xr.cols, sout⟩, ⟨c.xr.cols, rout⟩⟩ :: outs, ?_, ?_, hp', by simp [hl'], ?_⟩
    · simp only [runCalls, e, ok_bind, e2]
    · rw [hcost, ← Nat.add_assoc]; exact hv'
    · intro k h1 h2
      cases k with
      | zero =>
        simp only [List.getElem_cons_zero]
        refine ⟨trivial, trivial, sh1, sh2, ?_, ?_⟩
        · cases hxs : c.xs with
          | none =>
            rw [hxs] at hx
            have e : c.input = byteAt c.xr.rows := by funext i j; simp [Call.input, hxs]
            rw [e]
            exact permuted_of_xm hinv.perm hinv.len sh1 sh2 hck.1 hx
          | some y =>
            obtain ⟨hy, -⟩ := hck.2 y hxs
            rw [hxs] at hx
            have := permuted_of_xm hinv.perm hinv.len sh1 sh2 (xm_shape hck.1 hy) hx
            intro i hi j hj
            have := this i hi j hj
            cases hop : c.op with
            | regular =>
              simp only [hop] at this ⊢
              have hlt : s.perm.pi.getD i 0 < n := by
                have hi' : i < s.perm.pi.length := by rw [hinv.len]; exact hi
                rw [List.getD_eq_getElem?_getD, List.getElem?_eq_getElem hi']
                have := hinv.perm.1 _ (List.getElem_mem hi')
                simpa [hinv.len] using this
              rw [this, byteAt_xm hck.1 hy hlt hj]; simp [Call.input, hxs]
            | inverse =>
              simp only [hop] at this ⊢
              rw [this, byteAt_xm hck.1 hy hi hj]; simp [Call.input, hxs]
        · intro i hi j hj
          rw [byteAt_xm (sl_shape (maskOf_shape hinv c.op) (by omega)) hck.1 hi hj,
            byteAt_sl (maskOf_shape hinv c.op) hi hj, BitVec.xor_comm]
          simp only [List.take_zero, bytesUsed, List.map_nil, List.sum_nil, Nat.add_zero]
          cases c.op <;> rfl
      | succ k =>
        have := hall k (by simpa using h1) (by simpa using h2)
        simp only [List.getElem_cons_succ, List.take_succ_cons]
        have hb : bytesUsed (c :: cs.take k) = c.xr.cols + bytesUsed (cs.take k) := by simp [bytesUsed]
        rw [hb, ← Nat.add_assoc]
        exact this

/-- C05, refusal: a call that needs more bytes than remain throws, on the sender's side (before it
waits for a message) and on the receiver's side (before it sends one). -/
theorem C05_refuse {n W off : Nat} {s : PermCorSender} {r : PermCorReceiver}
    (hv : ValidCor n W off s r) (op : PermOp) (x y msg : Mat Row) (h : W < off + x.cols) :
    s.applyRemote op x.rows.length x.cols msg = .error .throw ∧
    s.apply op y x.rows.length x.cols msg = .error .throw ∧
    r.apply op x x.rows.length x.cols = .error .throw := by
  have hinv := validCor_iff.mp hv
  have d1 : decide (s.corSize < x.cols) = true := by
    simp only [PermCorSender.corSize, hinv.scols, hinv.soff]; have := hinv.le; simp; omega
  have d2 : decide (r.corSize < x.cols) = true := by
    simp only [PermCorReceiver.corSize, hinv.rcols, hinv.roff]; have := hinv.le; simp; omega
  have hs : s.applyRemote op x.rows.length x.cols msg = .error .throw := by
    simp only [PermCorSender.applyRemote, d1, throwIf_true]
    cases h1 : (s.size == 0) <;> cases h2 : (s.size != x.rows.length) <;> simp
  refine ⟨hs, ?_, ?_⟩
  · simp only [PermCorSender.apply, hs]
    cases h1 : (s.size == 0) <;> simp
  · simp only [PermCorReceiver.apply, d2, throwIf_true]
    cases h1 : (x.rows.length != r.size || x.rows.length != r.size || x.cols != x.cols) <;>
      cases h2 : (r.size == 0) <;> simp

/-- An uninitialized (empty) correlation is refused. -/
theorem C05_refuse_empty {s : PermCorSender} {r : PermCorReceiver} (hs : s.delta = []) (hr : r.a = [])
    (op : PermOp) (x y msg : Mat Row) (m k : Nat) :
    s.applyRemote op m k msg = .error .throw ∧ s.apply op y m k msg = .error .throw ∧
    r.apply op x m k = .error .throw := by
  refine ⟨?_, ?_, ?_⟩
  · simp [PermCorSender.applyRemote, PermCorSender.size, hs]
  · simp [PermCorSender.apply, PermCorSender.size, hs]
  · simp only [PermCorReceiver.apply, PermCorReceiver.size, hr]
    cases h1 : (x.rows.length != ([] : List Row).length || m != ([] : List Row).length || x.cols != k) <;>
      simp

/-- A valid correlation for three rows, produced by the dealer function. -/
def exDelta : List Row := (List.range 3).map fun i => (List.range 16).map fun j => BitVec.ofNat 8 (i * 37 + j * 11)
def exB : List Row := (List.range 3).map fun i => (List.range 16).map fun j => BitVec.ofNat 8 (i * 91 + j * 5 + 3)
def exPerm3 : Perm := ⟨[2, 0, 1]⟩

theorem exPerm3_perm : IsPermList exPerm3.pi := by unfold IsPermList exPerm3; decide
theorem exDelta_shape : Shape 3 16 exDelta := by unfold Shape exDelta; decide
theorem exB_shape : Shape 3 16 exB := by unfold Shape exB; decide

theorem exCor : ∃ s r, genPerm exPerm3 16 exDelta exB = .ok (s, r) ∧ ValidCor 3 16 0 s r := by
  obtain ⟨s, r, e, -, h⟩ := genPerm_ok exPerm3_perm (bytes := 16) (delta := exDelta) (b := exB)
    exDelta_shape exB_shape
  exact ⟨s, r, e, validCor_iff.mpr h⟩

/-- Non-vacuity of `C05_history`: two calls of widths 4 and 3, one shared, one inverse. -/
example : ∃ s r, ValidCor 3 16 0 s r ∧ ∃ calls : List Call, calls.length = 2 ∧
    (∀ c ∈ calls, c.Ok 3) ∧ 0 + bytesUsed calls ≤ 16 := by
  obtain ⟨s, r, -, h⟩ := exCor
  refine ⟨s, r, h, [⟨.regular, ⟨4, List.replicate 3 [1, 2, 3, 4]⟩, some ⟨4, List.replicate 3 [9, 8, 7, 6]⟩⟩,
    ⟨.inverse, ⟨3, List.replicate 3 [1, 2, 3]⟩, none⟩], rfl, ?_, by decide⟩
  intro c hc
  simp only [List.mem_cons, List.not_mem_nil, or_false] at hc
  rcases hc with rfl | rfl
  · refine ⟨by unfold Shape; decide, ?_⟩
    intro y hy; simp at hy; subst hy
    exact ⟨by unfold Shape; decide, rfl⟩
  · exact ⟨by unfold Shape; decide, by intro y hy; simp at hy⟩

/-- The dealer function makes a valid correlation (used by C07). -/
theorem C07_genPermCor (p : Perm) (hp : IsBijection p.pi) (bytes : Nat) (delta b : List Row)
    (hd : Shape p.pi.length (16 * ((bytes + 15) / 16)) delta)
    (hb : Shape p.pi.length (16 * ((bytes + 15) / 16)) b) :
    ∃ s r, genPerm p bytes delta b = .ok (s, r) ∧ s.perm = p ∧
      ValidCor p.pi.length (16 * ((bytes + 15) / 16)) 0 s r ∧ bytes ≤ 16 * ((bytes + 15) / 16) := by
  obtain ⟨s, r, e, h1, h2⟩ := genPerm_ok ((isBijection_iff _).mp hp) hd hb
  exact ⟨s, r, e, h1, validCor_iff.mpr h2, by omega⟩

/-- The debugging check `validate` accepts exactly the pairs that satisfy the correlation equation,
and throws for all others. -/
theorem C05_validate {n W : Nat} {s : PermCorSender} {r : PermCorReceiver}
    (hp : IsBijection s.perm.pi) (hl : s.perm.pi.length = n) (hd : Shape n W s.delta)
    (ha : Shape n W r.a) (hb : Shape n W r.b) :
    (validateCor s r = .ok () ↔ ∀ i, i < n → ∀ j, j < W →
      byteAt s.delta i j ^^^ byteAt r.b i j = byteAt r.a (s.perm.pi.getD i 0) j) ∧
    (validateCor s r = .ok () ∨ validateCor s r = .error .throw) := by
  have hp' := (isBijection_iff _).mp hp
  have hpb : ∀ x ∈ s.perm.pi, x < n := by rw [← hl]; exact hp'.1
  have h := validateCor_iff hp' hl hd ha hb
  constructor
  · rw [h.1]
    constructor
    · intro e i hi j hj
      rw [← byteAt_xm hd hb hi hj, e,
        byteAt_gather (by rw [ha.1]; exact hpb) (by rw [hl]; exact hi)]
    · intro e
      apply byteAt_ext (xm_shape hd hb) (gather_shape ha hpb hl)
      intro i hi j hj
      rw [byteAt_xm hd hb hi hj, e i hi j hj,
        byteAt_gather (by rw [ha.1]; exact hpb) (by rw [hl]; exact hi)]
  · by_cases e : xm s.delta r.b = gather s.perm.pi r.a
    · left; exact h.1.mpr e
    · right; exact h.2.mpr e

/-! ## C06 -/

/-- C06: after `derandomize` the pair is a valid correlation for the new permutation with the same
number of unused bytes, so that `C05_history` applies to it. -/
theorem C06_derandomize {n W off : Nat} {s : PermCorSender} {r : PermCorReceiver}
    (hv : ValidCor n W off s r) (q : Perm) (hq : IsBijection q.pi) (hl : q.pi.length = n) :
    ∃ s' msg r', s.derandomize q = .ok (s', msg) ∧ r.derandomize msg = .ok r' ∧
      s'.perm = q ∧ ValidCor n W off s' r' := by
  obtain ⟨msg, r', e1, e2, h⟩ := derandomize_ok (validCor_iff.mp hv) ((isBijection_iff _).mp hq) hl
  exact ⟨_, msg, r', e1, e2, rfl, validCor_iff.mpr h⟩

/-- C06: the message reveals only the difference of the two permutations: it is the permutation
that maps `new(i)` to `old(i)`. -/
theorem C06_message {n W off : Nat} {s : PermCorSender} {r : PermCorReceiver}
    (hv : ValidCor n W off s r) (q : Perm) (hq : IsBijection q.pi) (hl : q.pi.length = n) :
    ∃ s' msg, s.derandomize q = .ok (s', msg) ∧ IsBijection msg ∧ msg.length = n ∧
      ∀ i (h1 : i < q.pi.length), msg[q.pi[i]]? = s.perm.pi[i]? := by
  have hq' := (isBijection_iff _).mp hq
  have hinv := validCor_iff.mp hv
  have hi := invList_isPerm hq'
  have hls : (invList q.pi).length = s.perm.pi.length := by rw [invList_length, hl, hinv.len]
  have hbs : ∀ x ∈ invList q.pi, x < s.perm.pi.length := by rw [← hls]; exact hi.1
  refine ⟨{ s with perm := q }, gather (invList q.pi) s.perm.pi, ?_, ?_, ?_, ?_⟩
  · simp only [PermCorSender.derandomize, Perm.inverse_eq hq', ok_bind]
    rw [Perm.compose_eq (p := ⟨invList q.pi⟩) hi.1 (by rw [Perm.size, Perm.size]; exact hls.symm)]
    rfl
  · exact (isBijection_iff _).mpr (gather_isPerm hi hinv.perm hls)
  · rw [gather_length hbs, invList_length, hl]
  · intro i h1
    rw [gather_getElem? hbs, invList_getElem? (hq'.1 _ (List.getElem_mem h1)), idxOf_getElem' hq'.2 h1]
    rfl

example : ∃ s r, ValidCor 3 16 0 s r ∧ IsBijection [1, 0, 2] ∧ [1, 0, 2].length = 3 := by
  obtain ⟨s, r, -, h⟩ := exCor
  exact ⟨s, r, h, by rw [isBijection_iff]; unfold IsPermList; decide, rfl⟩

/-! ## C07 -/

/-- Party 0 and party 1 hold a shared permutation: two valid correlations in opposite directions. -/
structure ValidComposed (n W0 o0 W1 o1 : Nat) (c0 c1 : ComposedPerm) : Prop where
  idx : c0.idx = 0 ∧ c1.idx = 1
  cor0 : ValidCor n W0 o0 c0.snd c1.rcv
  cor1 : ValidCor n W1 o1 c1.snd c0.rcv

theorem validComposed_iff {n W0 o0 W1 o1 : Nat} {c0 c1 : ComposedPerm} :
    ValidComposed n W0 o0 W1 o1 c0 c1 ↔ CompInv n W0 o0 W1 o1 c0 c1 := by
  constructor
  · intro h; exact ⟨h.idx.1, h.idx.2, validCor_iff.mp h.cor0, validCor_iff.mp h.cor1⟩
  · intro h; exact ⟨⟨h.idx0, h.idx1⟩, validCor_iff.mpr h.cor0, validCor_iff.mpr h.cor1⟩

/-- The permutation that is shared: first `π0`, then `π1` is applied to the rows, so row `i` of the
result is row `π0(π1(i))` of the input. -/
def sharedPerm (c0 c1 : ComposedPerm) : List Nat :=
  c1.snd.perm.pi.map (fun j => c0.snd.perm.pi.getD j 0)

theorem sharedPerm_eq {n W0 o0 W1 o1 : Nat} {c0 c1 : ComposedPerm}
    (h : CompInv n W0 o0 W1 o1 c0 c1) :
    sharedPerm c0 c1 = gather c1.snd.perm.pi c0.snd.perm.pi := by
  have hb : ∀ x ∈ c1.snd.perm.pi, x < c0.snd.perm.pi.length := by
    rw [h.cor0.len, ← h.cor1.len]; exact h.cor1.perm.1
  apply gather_ext hb (by simp [sharedPerm])
  intro i hi
  have := hb _ (List.getElem_mem hi)
  simp [sharedPerm, hi, this]

/-- C07: applying the shared permutation to XOR-shared rows gives XOR shares of the rows moved by
`π1 ∘ π0`, in both directions; the state stays valid with `cols` more bytes used. -/
theorem C07_apply {n W0 o0 W1 o1 : Nat} {c0 c1 : ComposedPerm}
    (hv : ValidComposed n W0 o0 W1 o1 c0 c1) (hn : 0 < n) (op : PermOp) (x0 x1 : Mat Row)
    (hx0 : Shape n x0.cols x0.rows) (hx1 : Shape n x0.cols x1.rows) (hc : x1.cols = x0.cols)
    (h0 : o0 + x0.cols ≤ W0) (h1 : o1 + x0.cols ≤ W1) :
    ∃ c0' c1' y0 y1, ComposedPerm.applyBoth c0 c1 op x0 x1 = .ok (c0', c1', y0, y1) ∧
      ValidComposed n W0 (o0 + x0.cols) W1 (o1 + x0.cols) c0' c1' ∧
      sharedPerm c0' c1' = sharedPerm c0 c1 ∧
      Shape n x0.cols y0.rows ∧ Shape n x0.cols y1.rows ∧
      Permuted op (sharedPerm c0 c1) n x0.cols
        (fun i j => byteAt x0.rows i j ^^^ byteAt x1.rows i j)
        (fun i j => byteAt y0.rows i j ^^^ byteAt y1.rows i j) := by
  have hi := validComposed_iff.mp hv
  obtain ⟨c0', c1', y0, y1, e, hi', p0, p1, s0, s1, hx⟩ :=
    composed_applyBoth_ok hi hn (op := op) hx0 hx1 hc h0 h1
  refine ⟨c0', c1', _, _, e, validComposed_iff.mpr hi', by simp [sharedPerm, p0, p1], s0, s1, ?_⟩
  have hl : c1.snd.perm.pi.length = c0.snd.perm.pi.length := by rw [hi.cor0.len, hi.cor1.len]
  have hgp := gather_isPerm hi.cor1.perm hi.cor0.perm hl
  have hgl : (gather c1.snd.perm.pi c0.snd.perm.pi).length = n := by
    rw [gather_length (by rw [← hl]; exact hi.cor1.perm.1), hi.cor1.len]
  have := permuted_of_xm hgp hgl s0 s1 (xm_shape hx0 hx1) hx
  rw [sharedPerm_eq hi]
  intro i hi1 j hj
  have := this i hi1 j hj
  cases op with
  | regular =>
    simp only at this ⊢
    have hlt : (gather c1.snd.perm.pi c0.snd.perm.pi).getD i 0 < n := by
      have hi' : i < (gather c1.snd.perm.pi c0.snd.perm.pi).length := by omega
      rw [List.getD_eq_getElem?_getD, List.getElem?_eq_getElem hi']
      have := hgp.1 _ (List.getElem_mem hi')
      simpa [hgl] using this
    rw [this, byteAt_xm hx0 hx1 hlt hj]
  | inverse =>
    simp only at this ⊢
    rw [this, byteAt_xm hx0 hx1 hi1 hj]

/-- C07: what is shared is again a bijection. -/
theorem C07_shared_bijection {n W0 o0 W1 o1 : Nat} {c0 c1 : ComposedPerm}
    (hv : ValidComposed n W0 o0 W1 o1 c0 c1) :
    IsBijection (sharedPerm c0 c1) ∧ (sharedPerm c0 c1).length = n ∧
      c1.snd.perm.compose c0.snd.perm = .ok ⟨sharedPerm c0 c1⟩ := by
  have hi := validComposed_iff.mp hv
  have hl : c1.snd.perm.pi.length = c0.snd.perm.pi.length := by rw [hi.cor0.len, hi.cor1.len]
  rw [sharedPerm_eq hi]
  refine ⟨(isBijection_iff _).mpr (gather_isPerm hi.cor1.perm hi.cor0.perm hl), ?_,
    Perm.compose_eq hi.cor1.perm.1 hl.symm⟩
  rw [gather_length (by rw [← hl]; exact hi.cor1.perm.1), hi.cor1.len]

/-- C07: the dealer splits a given permutation such that the parties share exactly it. -/
theorem C07_genPerm (p : Perm) (hp : IsBijection p.pi) (draw : Nat → Nat) (bytes : Nat)
    (d0 b0 d1 b1 : List Row)
    (hd0 : Shape p.pi.length (16 * ((bytes + 15) / 16)) d0)
    (hb0 : Shape p.pi.length (16 * ((bytes + 15) / 16)) b0)
    (hd1 : Shape p.pi.length (16 * ((bytes + 15) / 16)) d1)
    (hb1 : Shape p.pi.length (16 * ((bytes + 15) / 16)) b1) :
    ∃ c0 c1, ComposedPerm.genPerm p draw bytes d0 b0 d1 b1 = .ok (c0, c1) ∧
      ValidComposed p.pi.length (16 * ((bytes + 15) / 16)) 0 (16 * ((bytes + 15) / 16)) 0 c0 c1 ∧
      sharedPerm c0 c1 = p.pi ∧ ComposedPerm.validate p c0 c1 = .ok () := by
  obtain ⟨c0, c1, e, hi, hs⟩ :=
    composed_genPerm_ok ((isBijection_iff _).mp hp) draw (bytes := bytes) hd0 hb0 hd1 hb1
  have hl : c1.snd.perm.pi.length = c0.snd.perm.pi.length := by rw [hi.cor0.len, hi.cor1.len]
  refine ⟨c0, c1, e, validComposed_iff.mpr hi, by rw [sharedPerm_eq hi, hs], ?_⟩
  have v0 := (validateCor_iff hi.cor0.perm hi.cor0.len hi.cor0.delta hi.cor0.a hi.cor0.b).1.mpr hi.cor0.cor
  have v1 := (validateCor_iff hi.cor1.perm hi.cor1.len hi.cor1.delta hi.cor1.a hi.cor1.b).1.mpr hi.cor1.cor
  simp only [ComposedPerm.validate, hi.idx0, hi.idx1, bne_self_eq_false, throwIf_false, ok_bind,
    Perm.compose_eq hi.cor1.perm.1 hl.symm, hs, v0, v1]

/-- C07: the check of a shared permutation accepts exactly if the parties' indices are 0 and 1, they share the
permutation it is given, and both correlations are valid. -/
theorem C07_validate {n W0 W1 : Nat} {pi : Perm} {c0 c1 : ComposedPerm}
    (hp0 : IsBijection c0.snd.perm.pi) (hp1 : IsBijection c1.snd.perm.pi)
    (hl0 : c0.snd.perm.pi.length = n) (hl1 : c1.snd.perm.pi.length = n)
    (hd0 : Shape n W0 c0.snd.delta) (ha0 : Shape n W0 c1.rcv.a) (hb0 : Shape n W0 c1.rcv.b)
    (hd1 : Shape n W1 c1.snd.delta) (ha1 : Shape n W1 c0.rcv.a) (hb1 : Shape n W1 c0.rcv.b) :
    ComposedPerm.validate pi c0 c1 = .ok () ↔
      c0.idx = 0 ∧ c1.idx = 1 ∧ pi.pi = sharedPerm c0 c1 ∧
      (xm c0.snd.delta c1.rcv.b = gather c0.snd.perm.pi c1.rcv.a) ∧
      (xm c1.snd.delta c0.rcv.b = gather c1.snd.perm.pi c0.rcv.a) := by
  have q0 := (isBijection_iff _).mp hp0
  have q1 := (isBijection_iff _).mp hp1
  have v0 := (validateCor_iff q0 hl0 hd0 ha0 hb0).1
  have v1 := (validateCor_iff q1 hl1 hd1 ha1 hb1).1
  have hl : c0.snd.perm.pi.length = c1.snd.perm.pi.length := by rw [hl0, hl1]
  have hb : ∀ x ∈ c1.snd.perm.pi, x < c0.snd.perm.pi.length := by rw [hl]; exact q1.1
  have hg : sharedPerm c0 c1 = gather c1.snd.perm.pi c0.snd.perm.pi := by
    apply gather_ext hb (by simp [sharedPerm])
    intro i hi
    simp [sharedPerm, List.getElem?_eq_getElem hi, List.getElem?_eq_getElem (hb _ (List.getElem_mem hi))]
  rw [← v0, ← v1, hg]
  unfold ComposedPerm.validate
  rw [Perm.compose_eq q1.1 hl]
  by_cases h0 : c0.idx = 0
  · by_cases h1 : c1.idx = 1
    · by_cases h2 : pi.pi = gather c1.snd.perm.pi c0.snd.perm.pi
      · have : pi = ⟨gather c1.snd.perm.pi c0.snd.perm.pi⟩ := by cases pi; simp_all
        subst this
        simp only [h0, h1, bne_self_eq_false, throwIf_false, ok_bind, true_and]
        cases validateCor c0.snd c1.rcv with
        | ok u => simp
        | error e => simp
      · have : (pi != ⟨gather c1.snd.perm.pi c0.snd.perm.pi⟩) = true := by
          rw [bne_iff_ne]; intro h; exact h2 (by rw [h])
        rw [h0, h1, ok_bind, this, throwIf_true]
        simp [h2]
    · have : (c1.idx != 1) = true := by rw [bne_iff_ne]; exact h1
      simp [h0, h1, this, throwIf]
  · have : (c0.idx != 0) = true := by rw [bne_iff_ne]; exact h0
    simp [h0, this, throwIf]

/-- C07: composing with an XOR-shared permutation `ρ` gives XOR shares of the composition: entry
`i` is `ρ(shared(i))`. -/
theorem C07_compose {n W0 o0 W1 o1 : Nat} {c0 c1 : ComposedPerm}
    (hv : ValidComposed n W0 o0 W1 o1 c0 c1) (hn : 0 < n) (s0 s1 : List (BitVec 32))
    (hs0 : s0.length = n) (hs1 : s1.length = n) (h0 : o0 + 4 ≤ W0) (h1 : o1 + 4 ≤ W1) :
    ∃ c0' c1' d0 d1, ComposedPerm.composeBoth c0 c1 s0 s1 = .ok (c0', c1', d0, d1) ∧
      ValidComposed n W0 (o0 + 4) W1 (o1 + 4) c0' c1' ∧ sharedPerm c0' c1' = sharedPerm c0 c1 ∧
      d0.length = n ∧ d1.length = n ∧
      ∀ i, i < n → d0.getD i 0 ^^^ d1.getD i 0 =
        s0.getD ((sharedPerm c0 c1).getD i 0) 0 ^^^ s1.getD ((sharedPerm c0 c1).getD i 0) 0 := by
  have hi := validComposed_iff.mp hv
  obtain ⟨c0', c1', d0, d1, e, hi', p0, p1, l0, l1, hx⟩ := composeBoth_ok hi hn hs0 hs1 h0 h1
  refine ⟨c0', c1', d0, d1, e, validComposed_iff.mpr hi', by simp [sharedPerm, p0, p1], l0, l1, ?_⟩
  intro i hin
  have hb := (C07_shared_bijection hv)
  have hbp := (isBijection_iff _).mp hb.1
  have hil : i < (sharedPerm c0 c1).length := by rw [hb.2.1]; exact hin
  have hlt := hbp.1 _ (List.getElem_mem hil)
  rw [hb.2.1] at hlt
  have := congrArg (fun l => l[i]?) hx
  simp only [← sharedPerm_eq hi] at this
  rw [gather_getElem? (by intro x hx'; have := hbp.1 x hx'; simp [hs0, hs1]; omega),
    List.getElem?_eq_getElem hil] at this
  simp only [Option.bind_some, List.getElem?_zipWith] at this
  rw [List.getElem?_eq_getElem (show i < d0.length by omega),
    List.getElem?_eq_getElem (show i < d1.length by omega),
    List.getElem?_eq_getElem (show (sharedPerm c0 c1)[i] < s0.length by omega),
    List.getElem?_eq_getElem (show (sharedPerm c0 c1)[i] < s1.length by omega)] at this
  simp only [Option.some.injEq] at this
  simp only [List.getD_eq_getElem?_getD, List.getElem?_eq_getElem (show i < d0.length by omega),
    List.getElem?_eq_getElem (show i < d1.length by omega), List.getElem?_eq_getElem hil,
    Option.getD_some, List.getElem?_eq_getElem (show (sharedPerm c0 c1)[i] < s0.length by omega),
    List.getElem?_eq_getElem (show (sharedPerm c0 c1)[i] < s1.length by omega)]
  exact this

/-- C07, refusal: a party whose permutation has another size, whose widths differ or whose
remaining correlation is too short throws before it sends anything. -/
theorem C07_refuse (c : ComposedPerm) (x : Mat Row) (rows cols : Nat)
    (h : rows ≠ c.snd.delta.length ∨ rows ≠ x.rows.length ∨ cols ≠ x.cols ∨ 1 < c.idx ∨
      c.snd.cols * 16 - c.snd.off < x.cols) : c.guard x rows cols = .error .throw := by
  simp only [ComposedPerm.guard, ComposedPerm.size, PermCorSender.size, PermCorSender.hasSetup,
    PermCorSender.corSize]
  by_cases h1 : rows = c.snd.delta.length
  · by_cases h2 : rows = x.rows.length ∧ cols = x.cols
    · obtain ⟨h2, h3⟩ := h2
      by_cases h4 : 1 < c.idx
      · simp [h1, h2, h3, h4, throwIf] <;> split <;> rfl
      · have h5 : c.snd.cols * 16 - c.snd.off < x.cols := by
          rcases h with h | h | h | h | h <;> first | contradiction | exact h
        have h6 : decide (c.snd.cols * 16 - c.snd.off ≥ x.cols) = false := by simpa using h5
        have e1 : (rows != c.snd.delta.length) = false := by simpa using h1
        have e2 : (rows != x.rows.length || cols != x.cols) = false := by simp [h2, h3]
        have e3 : decide (c.idx > 1) = false := by simpa using h4
        simp only [e1, e2, e3, throwIf_false, ok_bind]
        simp [throwIf]; omega
    · have e1 : (rows != c.snd.delta.length) = false := by simpa using h1
      have e2 : (rows != x.rows.length || cols != x.cols) = true := by
        by_contra hc
        simp only [Bool.not_eq_true, Bool.or_eq_false_iff, bne_eq_false_iff_eq] at hc
        exact h2 hc
      simp only [e1, e2, throwIf_false, throwIf_true, ok_bind, err_bind]
  · rw [throwIf_ne h1]; rfl

theorem exComposed : ∃ c0 c1, ValidComposed 3 16 0 16 0 c0 c1 ∧ sharedPerm c0 c1 = [2, 0, 1] := by
  obtain ⟨c0, c1, -, h, hs, -⟩ := C07_genPerm exPerm3 ((isBijection_iff _).mpr exPerm3_perm)
    (fun i => i * 5 + 1) 16 exDelta exB exB exDelta exDelta_shape exB_shape exB_shape exDelta_shape
  exact ⟨c0, c1, h, hs⟩

example : ∃ c0 c1, ValidComposed 3 16 0 16 0 c0 c1 ∧ ∃ x0 x1 : Mat Row, Shape 3 x0.cols x0.rows ∧
    Shape 3 x0.cols x1.rows ∧ x1.cols = x0.cols ∧ 0 + x0.cols ≤ 16 := by
  obtain ⟨c0, c1, h, -⟩ := exComposed
  exact ⟨c0, c1, h, ⟨2, [[1, 2], [3, 4], [5, 6]]⟩, ⟨2, [[7, 2], [3, 9], [5, 0]]⟩,
    by unfold Shape; decide, by unfold Shape; decide, rfl, by decide⟩

/-! ## C08 -/

/-- C08: after the derandomization protocol the parties share exactly the target permutation, with
valid correlations; four bytes per row of one correlation are used. -/
theorem C08_derandomize {n W0 o0 W1 o1 : Nat} {c0 c1 : ComposedPerm}
    (hv : ValidComposed n W0 o0 W1 o1 c0 c1) (hn : 0 < n) (s0 s1 : List (BitVec 32))
    (hs0 : s0.length = n) (hs1 : s1.length = n)
    (hp : IsBijection ((List.zipWith (· ^^^ ·) s0 s1).map BitVec.toNat)) (h1 : o1 + 4 ≤ W1) :
    ∃ c0' c1', ComposedPerm.derandomizeBoth c0 c1 s0 s1 = .ok (c0', c1') ∧
      ValidComposed n W0 o0 W1 (o1 + 4) c0' c1' ∧
      sharedPerm c0' c1' = (List.zipWith (· ^^^ ·) s0 s1).map BitVec.toNat := by
  have hi := validComposed_iff.mp hv
  obtain ⟨c0', c1', e, hi', hs⟩ :=
    composed_derandomize_ok hi hn hs0 hs1 ((isBijection_iff _).mp hp) h1
  exact ⟨c0', c1', e, validComposed_iff.mpr hi', by rw [sharedPerm_eq hi', hs]⟩

example : ∃ c0 c1, ValidComposed 3 16 0 16 0 c0 c1 ∧ ∃ s0 s1 : List (BitVec 32),
    s0.length = 3 ∧ s1.length = 3 ∧
    IsBijection ((List.zipWith (· ^^^ ·) s0 s1).map BitVec.toNat) ∧ 0 + 4 ≤ 16 := by
  obtain ⟨c0, c1, h, -⟩ := exComposed
  refine ⟨c0, c1, h, [5, 6, 7], [4, 4, 7], rfl, rfl, ?_, by decide⟩
  rw [isBijection_iff]; unfold IsPermList; decide

end SecJoin
