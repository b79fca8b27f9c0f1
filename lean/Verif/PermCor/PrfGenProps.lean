import Verif.PermCor.Props
import Verif.PermCor.PrfGenLemmas
/-!
# C58, C66, C67: generators of permutation correlations
-/
namespace SecJoin
namespace PrfGen

open Mod3 (Block)
open AltMod

/-! ## C58 -/

/-- The parties can run the PRF protocol on `m` inputs: public codes, base OTs that fit the key and correlations of the right size. -/
structure Prf.Ready (E : Prf) (Gm : Nat → List (List Byte)) (M : List (List Nat)) (Bm : List (List Byte)) (m : Nat) : Prop where
  pub : PubOk E.P Gm Bm M
  prg : E.G.Ok
  key : E.key.length = 512
  ots : GensOk E.key E.ots.snd E.ots.rcv
  cor : E.cor.Ok
  sized : E.cor.Sized m
  mem : F3.Shape E.outS 256 (divCeil m 128) ∧ F3.Shape E.outR 256 (divCeil m 128) ∧ F3.Shape E.outA 256 (divCeil m 128)

/-- C58: for every permutation, number of rows and row width (in bytes), the PRF generator leaves a valid correlation for the sender's
permutation, with at least the requested width. Its mask `A` is the PRF of the hashed position. The base OTs can be used again. -/
theorem C58_altMod {aes : Block → Block → Block} {E : Prf} {hk : Block} {n bytes off : Nat} {perm : Perm} {s : PermCorSender} {r : PermCorReceiver}
    {Gm : Nat → List (List Byte)} {Bm : List (List Byte)} {M : List (List Nat)} (hE : E.Ready Gm M Bm (n * divCeil bytes 16))
    (hp : IsBijection perm.pi) (hl : perm.pi.length = n) (hn : 0 < n) (hb : 0 < bytes) (hs : s.off = off) (hr : r.off = off)
    (ho : off ≤ 16 * divCeil bytes 16) :
    ∃ s' r' ots', generate aes E hk (Setup.init n bytes) perm s r = .ok (s', r', ots') ∧ s'.perm = perm ∧
      ValidCor n (16 * divCeil bytes 16) off s' r' ∧ bytes ≤ 16 * divCeil bytes 16 ∧ GensOk E.key ots'.snd ots'.rcv ∧
      ∀ i, i < n → ∀ j, j < 16 * divCeil bytes 16 → ∀ p, p < 8 →
        (byteAt r'.a i j).getLsbD p = prfBit Gm M Bm (fun q => E.key.getD q false) (aes hk (blk (j / 16) i)) (8 * (j % 16) + p) := by
  obtain ⟨s', r', o, h1, h2, h3, h4, h5⟩ := generate_ok (aes := aes) (hk := hk) hE.pub hE.prg hE.key hE.ots hE.cor hE.sized hE.mem.1 hE.mem.2.1 hE.mem.2.2
    ((isBijection_iff _).mp hp) hl hn hb hs hr ho
  exact ⟨s', r', o, h1, h2, validCor_iff.mpr h3, by unfold divCeil; omega, h4, h5⟩

/-- C58, refusals: a generator that was not initialised, an empty permutation, no bytes, or a permutation of another size. -/
theorem C58_refused {aes : Block → Block → Block} {E : Prf} {hk : Block} {S : Setup} {perm : Perm} {s : PermCorSender} {r : PermCorReceiver}
    (h : S.inputSize = 0 ∨ S.n = 0 ∨ perm.pi.length ≠ S.n) : generate aes E hk S perm s r = .error .throw := by
  have : sendCheck S perm = .error .throw := by
    unfold sendCheck
    by_cases h1 : S.inputSize = 0
    · simp [h1]
    by_cases h2 : S.n = 0
    · cases (S.inputSize == 0) <;> simp [h2]
    have h3 : perm.size ≠ S.n := by
      rcases h with h | h | h
      · exact absurd h h1
      · exact absurd h h2
      · exact h
    have e1 : (S.inputSize == 0) = false := by simpa using h1
    have e2 : (S.n == 0) = false := by simpa using h2
    rw [e1, e2, throwIf_false, ok_bind, ok_bind, throwIf_ne h3]
  rw [generate, this, err_bind]

/-- C58: both directions together give the parties a shared permutation, which is `p1 ∘ p0`. -/
theorem C58_composed {aes : Block → Block → Block} {E0 E1 : Prf} {h0 h1 : Block} {n bytes o0 o1 : Nat} {p0 p1 : Perm} {d0 d1 : ComposedPerm}
    {Gm : Nat → List (List Byte)} {Bm : List (List Byte)} {M : List (List Nat)} (hE0 : E0.Ready Gm M Bm (n * divCeil bytes 16))
    (hE1 : E1.Ready Gm M Bm (n * divCeil bytes 16)) (hp0 : IsBijection p0.pi) (hp1 : IsBijection p1.pi) (hl0 : p0.pi.length = n) (hl1 : p1.pi.length = n)
    (hn : 0 < n) (hb : 0 < bytes) (hs0 : d0.snd.off = o0 ∧ d1.rcv.off = o0) (hs1 : d1.snd.off = o1 ∧ d0.rcv.off = o1)
    (ho0 : o0 ≤ 16 * divCeil bytes 16) (ho1 : o1 ≤ 16 * divCeil bytes 16) :
    ∃ c0 c1, composedBoth aes E0 E1 h0 h1 (Setup.init n bytes) p0 p1 d0 d1 = .ok (c0, c1) ∧
      ValidComposed n (16 * divCeil bytes 16) o0 (16 * divCeil bytes 16) o1 c0 c1 ∧ sharedPerm c0 c1 = p1.pi.map fun j => p0.pi.getD j 0 := by
  obtain ⟨s0, r1, o0, a1, a2, a3, -⟩ := C58_altMod (aes := aes) (hk := h0) hE0 hp0 hl0 hn hb hs0.1 hs0.2 ho0
  obtain ⟨s1, r0, o1, b1, b2, b3, -⟩ := C58_altMod (aes := aes) (hk := h1) hE1 hp1 hl1 hn hb hs1.1 hs1.2 ho1
  have hc : 0 < n * divCeil bytes 16 := Nat.mul_pos hn (by unfold divCeil; omega)
  have e : ((Setup.init n bytes).inputSize == 0) = false := by
    simp only [Setup.init, beq_eq_false_iff_ne]
    omega
  refine ⟨⟨0, s0, r0⟩, ⟨1, s1, r1⟩, ?_, ⟨⟨rfl, rfl⟩, a3, b3⟩, by rw [sharedPerm, a2, b2]⟩
  simp only [composedBoth, composedReturns, whenReady, e, throwIf_false, ok_bind, a1, b1]

/-- The run of the circuit gives XOR shares of the cipher of every input. -/
def GmwOk (enc : LBlock → LBlock) (gmw : List LBlock → Res (List LBlock × List LBlock)) : Prop :=
  ∀ x : List LBlock, ∃ d b, gmw x = .ok (d, b) ∧ d.length = x.length ∧ b.length = x.length ∧ ∀ i, i < x.length → d.getD i 0 ^^^ b.getD i 0 = enc (x.getD i 0)

/-- C58 for the generator with LowMC. -/
theorem C58_lowMC {enc : LBlock → LBlock} {gmw : List LBlock → Res (List LBlock × List LBlock)} {n bytes off : Nat} {perm : Perm} {s : PermCorSender}
    {r : PermCorReceiver} (hg : GmwOk enc gmw) (hp : IsBijection perm.pi) (hl : perm.pi.length = n) (hn : 0 < n) (hs : s.off = off) (hr : r.off = off)
    (ho : off ≤ 16 * divCeil bytes 16) :
    ∃ s' r', lowGenerate enc gmw n bytes perm s r = .ok (s', r') ∧ s'.perm = perm ∧ ValidCor n (16 * divCeil bytes 16) off s' r' ∧
      bytes ≤ 16 * divCeil bytes 16 := by
  obtain ⟨s', r', h1, h2, h3, -⟩ := lowGenerate_ok (hg _) ((isBijection_iff _).mp hp) hl hn hs hr ho
  exact ⟨s', r', h1, h2, validCor_iff.mpr h3, by unfold divCeil; omega⟩

/-- C58, refusals of the generator with LowMC. -/
theorem C58_lowMC_refused {enc : LBlock → LBlock} {gmw : List LBlock → Res (List LBlock × List LBlock)} {n bytes : Nat} {perm : Perm} {s : PermCorSender}
    {r : PermCorReceiver} (h : n = 0 ∨ perm.pi.length ≠ n) : lowGenerate enc gmw n bytes perm s r = .error .throw := by
  unfold lowGenerate
  by_cases h1 : perm.size = n
  · have h0 : n = 0 := h.resolve_right fun k => k h1
    rw [h1, h0]
    rfl
  · rw [throwIf_ne h1, err_bind]

/-- C58 for the mock: the outputs are shares of the permuted input, in both directions, with and without a share on the sender's side. -/
theorem C58_mock {pi : Perm} {op : PermOp} {n : Nat} {xr : Mat Row} {xs : Option (Mat Row)} (hp : IsBijection pi.pi) (hl : pi.pi.length = n)
    (hx : Call.Ok n ⟨op, xr, xs⟩) :
    ∃ sout rout, mockBoth pi op xr xs = .ok (sout, rout) ∧ sout.cols = xr.cols ∧ rout.cols = xr.cols ∧ Shape n xr.cols sout.rows ∧
      Shape n xr.cols rout.rows ∧
      Permuted op pi.pi n xr.cols (Call.input ⟨op, xr, xs⟩) (fun i j => byteAt sout.rows i j ^^^ byteAt rout.rows i j) := by
  have hp' := (isBijection_iff _).mp hp
  obtain ⟨hx1, hx2⟩ := hx
  simp only at hx1 hx2
  have hm := mockRows_shape n xr.cols
  have hq := permRows_shape (op := op) hp' hl hx1
  have b1 : (n != n || xr.cols != xr.cols) = false := by simp
  simp only [mockBoth, mockRecv, hx1.1, b1, throwIf_false, ok_bind]
  cases xs with
  | none =>
    refine ⟨⟨xr.cols, xm (permRows op pi.pi xr.rows) (mockRows n xr.cols)⟩, ⟨xr.cols, mockRows n xr.cols⟩,
      by simp only [mockSend_ok hp' hl hx1 rfl, ok_bind], rfl, rfl, xm_shape hq hm, hm, ?_⟩
    refine permuted_of_xm hp' hl (xm_shape hq hm) hm hx1 ?_
    rw [xm_comm, xm_comm (permRows op pi.pi xr.rows), xm_cancel hm hq]
  | some y =>
    obtain ⟨y1, y2⟩ := hx2 y rfl
    have hqy := permRows_shape (op := op) hp' hl y1
    have hs := xm_shape (xm_shape hq hm) hqy
    refine ⟨⟨xr.cols, xm (xm (permRows op pi.pi xr.rows) (mockRows n xr.cols)) (permRows op pi.pi y.rows)⟩, ⟨xr.cols, mockRows n xr.cols⟩,
      by simp only [mockSend2_ok hp' hl hx1 rfl y1 y2, ok_bind], rfl, rfl, hs, hm, ?_⟩
    have hi : ∀ i, i < n → ∀ j, j < xr.cols → byteAt (xm xr.rows y.rows) i j = Call.input ⟨op, xr, some y⟩ i j := fun i hi j hj => byteAt_xm hx1 y1 hi hj
    have h := permuted_of_xm (op := op) hp' hl hs hm (xm_shape hx1 y1) (by
      rw [permRows_xm hp' hl hx1 y1, xm_comm, ← (inferInstance : Std.Associative xm).assoc, xm_comm (permRows op pi.pi xr.rows), xm_cancel hm hq])
    intro i hin j hj
    have := h i hin j hj
    cases op with
    | regular =>
      simp only at this ⊢
      rw [this, hi _ (getD_lt hp' hl hin) j hj]
    | inverse =>
      simp only at this ⊢
      rw [this, hi i hin j hj]

/-- C58: the mock refuses an output of another size. -/
theorem C58_mock_refused {pi : Perm} {op : PermOp} {x x2 msg : Mat Row} {rows cols : Nat} :
    ((x.rows.length ≠ rows ∨ x.cols ≠ cols) → mockRecv x rows cols = .error .throw) ∧
      (rows ≠ pi.pi.length → mockSend pi op rows cols msg = .error .throw ∧ mockSend2 pi op x2 rows cols msg = .error .throw) := by
  refine ⟨fun h => ?_, fun h => ?_⟩
  · have : (x.rows.length != rows || x.cols != cols) = true := by
      rw [Bool.or_eq_true, bne_iff_ne, bne_iff_ne]
      exact h
    rw [mockRecv, this]
    rfl
  · have : mockSend pi op rows cols msg = .error .throw := by rw [mockSend, throwIf_ne (by exact h), err_bind]
    exact ⟨this, by rw [mockSend2.eq_def, this, err_bind]⟩

/-! ## C66: errors of the generator of shared permutations -/

/-- C66 fails: a party that passes a permutation of another size is not told. Whatever its other task does when it ends normally, the
call returns, and the part of the result that holds its permutation is what it was before. -/
theorem C66_false {aes : Block → Block → Block} {E : Prf} {hk : Block} {S : Setup} {perm : Perm} {idx : Nat} {dst : ComposedPerm} {r r' : PermCorReceiver}
    (hS : S.inputSize ≠ 0) (h : perm.pi.length ≠ S.n) :
    composedReturns S idx dst ((generate aes E hk S perm dst.snd r).map (·.1)) (.ok r') = .ok ⟨idx, dst.snd, r'⟩ := by
  have e : (S.inputSize == 0) = false := by simpa using hS
  rw [C58_refused (Or.inr (Or.inr h))]
  simp only [composedReturns, e, throwIf_false, ok_bind]
  rfl

/-- C66, partial: only a generator that was not initialised is reported. -/
theorem C66_partial {S : Setup} {idx : Nat} {dst : ComposedPerm} {snd : Res PermCorSender} {rcv : Res PermCorReceiver} (h : S.inputSize = 0) :
    composedReturns S idx dst snd rcv = .error .throw := by
  rw [composedReturns, h]
  rfl

/-! ## C67: no part of the mask is used for two positions -/

/-- C67 for the PRF generator: the points at which the PRF is evaluated are different for all blocks of all rows. -/
theorem C67_altMod {aes : Block → Block → Block} {hk : Block} {n bytes : Nat} (hn : n ≤ 2 ^ 64) (hb : divCeil bytes 16 ≤ 2 ^ 64)
    (hinj : ∀ x y, aes hk x = aes hk y → x = y) {i j i' j' : Nat} (hi : i < n) (hj : j < 16 * divCeil bytes 16) (hi' : i' < n)
    (hj' : j' < 16 * divCeil bytes 16) (h : aes hk (blk (j / 16) i) = aes hk (blk (j' / 16) i')) : i = i' ∧ j / 16 = j' / 16 := by
  have e := congrArg BitVec.toNat (hinj _ _ h)
  simp only [blk, BitVec.toNat_append, BitVec.toNat_ofNat] at e
  have q1 : j / 16 < 2 ^ 64 := by omega
  have q2 : j' / 16 < 2 ^ 64 := by omega
  rw [Nat.mod_eq_of_lt q1, Nat.mod_eq_of_lt q2, Nat.mod_eq_of_lt (by omega), Nat.mod_eq_of_lt (by omega),
    Nat.shiftLeft_eq, Nat.shiftLeft_eq, Nat.mul_comm, Nat.mul_comm (j' / 16), ← Nat.two_pow_add_eq_or_of_lt (by omega),
    ← Nat.two_pow_add_eq_or_of_lt (by omega)] at e
  omega

/-- A block of a row is at the point of the previous block of the next row. -/
theorem lowPoint_succ (j i : Nat) : lowPoint (j + 1) i = lowPoint j (i + 1) := by
  unfold lowPoint
  congr 2
  rw [← BitVec.ofNat_add, ← BitVec.ofNat_add]
  congr 1
  omega

/-- C67 fails for the generator with LowMC: with rows of more than 32 bytes the mask of a row is, shifted by 32 bytes, the mask of the
next row. So the message of the first application reveals the XOR of bytes of neighbouring rows of the receiver's input. -/
theorem C67_lowMC_false {enc : LBlock → LBlock} {gmw : List LBlock → Res (List LBlock × List LBlock)} {n bytes : Nat} {perm : Perm} {s : PermCorSender}
    {r : PermCorReceiver} (hg : GmwOk enc gmw) (hp : IsBijection perm.pi) (hl : perm.pi.length = n) (hn : 0 < n) (hs : s.off = 0) (hr : r.off = 0)
    {xr : Mat Row} {xs : Option (Mat Row)} (hc : Call.Ok n ⟨.regular, xr, xs⟩) (hw : xr.cols ≤ bytes) :
    ∃ s' r' s'' r'' o, lowGenerate enc gmw n bytes perm s r = .ok (s', r') ∧ runCalls s' r' [⟨.regular, xr, xs⟩] = .ok (s'', r'', [o]) ∧
      ∀ i, i + 1 < n → ∀ j, j + 32 < xr.cols →
        byteAt o.msg.rows i (j + 32) ^^^ byteAt o.msg.rows (i + 1) j = byteAt xr.rows i (j + 32) ^^^ byteAt xr.rows (i + 1) j := by
  obtain ⟨s', r', h1, h2, h3, h4⟩ := lowGenerate_ok (bytes := bytes) (hg _) ((isBijection_iff _).mp hp) hl hn hs hr (Nat.zero_le _)
  have hW : bytes ≤ 16 * divCeil bytes 16 := by
    unfold divCeil
    omega
  obtain ⟨s'', r'', outs, g1, -, -, g2, g3⟩ := C05_history (validCor_iff.mpr h3) hn [⟨.regular, xr, xs⟩] (fun c hc' => by
    rw [List.mem_singleton.1 hc']
    exact hc) (by simp only [bytesUsed, List.map_cons, List.map_nil, List.sum_cons, List.sum_nil]; omega)
  obtain ⟨o, rfl⟩ : ∃ o, outs = [o] := List.length_eq_one_iff.1 g2
  have hm := (g3 0 (by simp) (by simp)).2.2.2.2.2
  simp only [List.getElem_cons_zero, List.take_zero, bytesUsed, List.map_nil, List.sum_nil, Nat.zero_add] at hm
  refine ⟨s', r', s'', r'', o, h1, g1, fun i hi j hj => ?_⟩
  rw [hm i (by omega) (j + 32) hj, hm (i + 1) hi j (by omega), h4 i (by omega) (j + 32) (by omega), h4 (i + 1) hi j (by omega),
    show (j + 32) / 32 = j / 32 + 1 by omega, show (j + 32) % 32 = j % 32 by omega, lowPoint_succ]
  generalize (enc (lowPoint (j / 32) (i + 1))).extractLsb' (8 * (j % 32)) 8 = w
  generalize byteAt xr.rows i (j + 32) = a
  generalize byteAt xr.rows (i + 1) j = b
  rw [BitVec.xor_comm b w, ← BitVec.xor_assoc, BitVec.xor_assoc a w w, BitVec.xor_self, BitVec.xor_zero]

/-- C67, partial: with LowMC the points are different if a row has at most 32 bytes. -/
theorem C67_lowMC_partial {n bytes : Nat} (hn : n ≤ 2 ^ 32) (hb : bytes ≤ 32) {i j i' j' : Nat} (hi : i < n) (hj : j < 16 * divCeil bytes 16)
    (hi' : i' < n) (hj' : j' < 16 * divCeil bytes 16) (h : lowPoint (j / 32) i = lowPoint (j' / 32) i') : i = i' := by
  have b1 : j / 32 = 0 := by
    unfold divCeil at hj
    omega
  have b2 : j' / 32 = 0 := by
    unfold divCeil at hj'
    omega
  rw [b1, b2] at h
  have e := congrArg BitVec.toNat h
  simp only [lowPoint, BitVec.toNat_setWidth, BitVec.toNat_shiftLeft, BitVec.toNat_add, BitVec.toNat_ofNat, Nat.shiftLeft_eq] at e
  omega

/-! ## Cases that meet the hypotheses -/

/-- Three rows of 20 bytes: six blocks. -/
example : ∃ E M, Prf.Ready E exMat M (exMat 5) (3 * divCeil 20 16) := by
  obtain ⟨P, M, hP⟩ := exPub
  exact ⟨⟨P, exG, List.replicate 512 true, ⟨List.replicate 512 (⟨1, 0⟩, ⟨2, 0⟩), List.replicate 512 ⟨2, 0⟩⟩,
    .ole [List.replicate 512 exA] [List.replicate 512 AltMod.exB], List.replicate 256 [(1, 9)], List.replicate 256 [(7, 7)], List.replicate 256 [(0, 3)]⟩, M,
    hP, exG_ok, List.length_replicate, gens_replicate _ _ _, exOleCor.1, exOleCor.2, shape_replicate [(1, 9)] 256, shape_replicate [(7, 7)] 256,
    shape_replicate [(0, 3)] 256⟩
example : IsBijection [2, 0, 1] ∧ [2, 0, 1].length = 3 := ⟨(isBijection_iff _).mpr (by unfold IsPermList; decide), rfl⟩
/-- A run of a circuit that meets the hypothesis, with a sharing that depends on the position. -/
example : GmwOk (fun x => x * 5 + 1) fun x => .ok (List.zipWith (· ^^^ ·) (x.map fun x => x * 5 + 1) ((List.range x.length).map fun i => BitVec.ofNat 256 (7 * i)),
    (List.range x.length).map fun i => BitVec.ofNat 256 (7 * i)) := by
  refine fun x => ⟨_, _, rfl, by simp, by simp, fun i hi => ?_⟩
  simp [List.getD_eq_getElem?_getD, hi, BitVec.xor_assoc]
/-- The setup is initialised, and the permutation has another size. -/
example : (Setup.init 3 20).inputSize ≠ 0 ∧ [1, 0].length ≠ (Setup.init 3 20).n := by decide

end PrfGen
end SecJoin
