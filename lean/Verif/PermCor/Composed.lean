import Verif.PermCor.Lemmas
/-!
# Lemmas for composed shared permutations
-/
namespace SecJoin

theorem bytesU32_u32Bytes (w : BitVec 32) : bytesU32 (u32Bytes w) = .ok w := by
  simp only [bytesU32, u32Bytes]
  congr 1
  apply BitVec.eq_of_getLsbD_eq
  intro i hi
  simp only [BitVec.getLsbD_append, BitVec.getLsbD_extractLsb']
  by_cases h1 : i < 8
  · simp [h1]
  · by_cases h2 : i < 16
    · simp [h1, show i - 8 < 8 by omega, show 8 + (i - 8) = i by omega]
    · by_cases h3 : i < 24
      · simp [h1, show ¬ i - 8 < 8 by omega, show i - 8 - 8 < 8 by omega, show 16 + (i - 8 - 8) = i by omega]
      · simp [h1, show ¬ i - 8 < 8 by omega, show ¬ i - 8 - 8 < 8 by omega, show i - 8 - 8 - 8 < 8 by omega,
          show 24 + (i - 8 - 8 - 8) = i by omega]

theorem append_xor4 (a b c d a' b' c' d' : Byte) :
   (d ++ c ++ b ++ a) ^^^ (d' ++ c' ++ b' ++ a') = (d ^^^ d') ++ (c ^^^ c') ++ (b ^^^ b') ++ (a ^^^ a') := by
  ext i hi
  simp only [BitVec.getElem_append, BitVec.getElem_xor]
  split <;> (try split) <;> (try split) <;> simp_all

/-- Total version of `bytesU32`. -/
def dec32 : Row → BitVec 32
  | [a, b, c, d] => d ++ c ++ b ++ a
  | _ => 0

theorem bytesU32_eq {r : Row} (h : r.length = 4) : bytesU32 r = .ok (dec32 r) := by
  match r, h with
  | [_, _, _, _], _ => rfl

theorem dec32_u32Bytes (w : BitVec 32) : dec32 (u32Bytes w) = w := by
  have h := bytesU32_u32Bytes w
  rw [bytesU32_eq (by simp [u32Bytes])] at h
  simpa using h

theorem dec32_xor {r s : Row} (hr : r.length = 4) (hs : s.length = 4) :
    dec32 (xorRow r s) = dec32 r ^^^ dec32 s := by
  match r, hr, s, hs with
  | [_, _, _, _], _, [_, _, _, _], _ => exact (append_xor4 _ _ _ _ _ _ _ _).symm

theorem matU32_ok {n c : Nat} {m : List Row} (h : Shape n 4 m) :
    matU32 ⟨c, m⟩ = .ok (m.map dec32) := by
  simp only [matU32]
  induction m generalizing n with
  | nil => rfl
  | cons r t ih =>
    have h4 := h.2 r (by simp)
    have := ih (n := t.length) ⟨rfl, fun x hx => h.2 x (by simp [hx])⟩
    rw [List.mapM_cons, bytesU32_eq h4, this]; rfl

theorem u32Mat_shape (v : List (BitVec 32)) : Shape v.length 4 (v.map u32Bytes) := by
  refine ⟨by simp, ?_⟩
  intro r hr
  obtain ⟨w, -, rfl⟩ := List.mem_map.mp hr
  rfl

theorem u32Bytes_xor (a b : BitVec 32) : xorRow (u32Bytes a) (u32Bytes b) = u32Bytes (a ^^^ b) := by
  have hl : ∀ w, (u32Bytes w).length = 4 := fun _ => rfl
  have e1 : xorRow (u32Bytes a) (u32Bytes b) =
      [a.extractLsb' 0 8 ^^^ b.extractLsb' 0 8, a.extractLsb' 8 8 ^^^ b.extractLsb' 8 8,
       a.extractLsb' 16 8 ^^^ b.extractLsb' 16 8, a.extractLsb' 24 8 ^^^ b.extractLsb' 24 8] := rfl
  rw [e1, u32Bytes]
  simp [BitVec.extractLsb'_xor]

theorem xm_u32 (a b : List (BitVec 32)) :
    xm (a.map u32Bytes) (b.map u32Bytes) = (List.zipWith (· ^^^ ·) a b).map u32Bytes := by
  simp only [xm, List.zipWith_map, List.map_zipWith, u32Bytes_xor]

theorem zipWith_dec32 {n : Nat} {a b : List Row} (ha : Shape n 4 a) (hb : Shape n 4 b) :
    List.zipWith (· ^^^ ·) (a.map dec32) (b.map dec32) = (xm a b).map dec32 := by
  induction a generalizing b n with
  | nil => simp [xm]
  | cons x a ih =>
    cases b with
    | nil => simp [xm]
    | cons y b =>
      have h1 := ha.1; have h2 := hb.1
      simp only [List.length_cons] at h1 h2
      have := ih (n := n - 1) (b := b) ⟨by omega, fun r hr => ha.2 r (by simp [hr])⟩
        ⟨by omega, fun r hr => hb.2 r (by simp [hr])⟩
      simp only [List.map_cons, List.zipWith_cons_cons, xm, this,
        dec32_xor (ha.2 x (by simp)) (hb.2 y (by simp))]

/-- The two correlations of a composed permutation: `c0.snd` with `c1.rcv` (width `W0`, `o0` bytes
used) and `c1.snd` with `c0.rcv`. -/
structure CompInv (n W0 o0 W1 o1 : Nat) (c0 c1 : ComposedPerm) : Prop where
  idx0 : c0.idx = 0
  idx1 : c1.idx = 1
  cor0 : CorInv n W0 o0 c0.snd c1.rcv
  cor1 : CorInv n W1 o1 c1.snd c0.rcv

theorem twoPhase_ok {n Wa oa Wb ob : Nat} {a b : ComposedPerm}
    (ha : CorInv n Wa oa a.snd b.rcv) (hb : CorInv n Wb ob b.snd a.rcv) (hn : 0 < n) {op : PermOp}
    {xa xb : Mat Row} (hxa : Shape n xa.cols xa.rows) (hxb : Shape n xa.cols xb.rows)
    (hc : xb.cols = xa.cols) (h1 : oa + xa.cols ≤ Wa) (h2 : ob + xa.cols ≤ Wb) :
    ∃ ya yb,
      ComposedPerm.twoPhase a b op xa xb =
        .ok (⟨a.idx, { a.snd with off := oa + xa.cols }, { a.rcv with off := ob + xa.cols }⟩,
          ⟨b.idx, { b.snd with off := ob + xa.cols }, { b.rcv with off := oa + xa.cols }⟩,
          ⟨xa.cols, ya⟩, ⟨xa.cols, yb⟩) ∧
      Shape n xa.cols ya ∧ Shape n xa.cols yb ∧
      xm ya yb = permRows op a.snd.perm.pi (permRows op b.snd.perm.pi (xm xa.rows xb.rows)) := by
  obtain ⟨tb, ta, e1, s1, s2, x1⟩ := applyBoth_ok hb hn (op := op) (x := xa) (xs := some xb) hxa
    (fun y hy => by simp at hy; subst hy; exact ⟨hxb, hc⟩) h2
  obtain ⟨ya, yb, e2, s3, s4, x2⟩ := applyBoth_ok ha hn (op := op) (x := ⟨xa.cols, tb⟩)
    (xs := some ⟨xa.cols, ta⟩) s1
    (fun y hy => by simp at hy; subst hy; exact ⟨s2, rfl⟩) h1
  refine ⟨ya, yb, ?_, s3, s4, ?_⟩
  · simp only [ComposedPerm.twoPhase, e1, ok_bind]
    rw [e2]; rfl
  · rw [x2]; simp only [joinIn]; rw [x1]; rfl

theorem guard_ok {n W off : Nat} {c : ComposedPerm} {r : PermCorReceiver}
    (h : CorInv n W off c.snd r) (hi : c.idx ≤ 1) {x : Mat Row} (hx : Shape n x.cols x.rows)
    (hW : off + x.cols ≤ W) : c.guard x x.rows.length x.cols = .ok () := by
  have e1 : c.size = n := by rw [ComposedPerm.size, PermCorSender.size, h.delta.1]
  have e2 : decide (c.idx > 1) = false := by simpa using hi
  have e3 : c.snd.hasSetup x.cols = true := by
    simp only [PermCorSender.hasSetup, PermCorSender.corSize, h.scols, h.soff]
    simp; omega
  simp [ComposedPerm.guard, e1, hx.1, e2, e3]

theorem composed_applyBoth_ok {n W0 o0 W1 o1 : Nat} {c0 c1 : ComposedPerm}
    (h : CompInv n W0 o0 W1 o1 c0 c1) (hn : 0 < n) {op : PermOp} {x0 x1 : Mat Row}
    (hx0 : Shape n x0.cols x0.rows) (hx1 : Shape n x0.cols x1.rows) (hc : x1.cols = x0.cols)
    (h0 : o0 + x0.cols ≤ W0) (h1 : o1 + x0.cols ≤ W1) :
    ∃ c0' c1' y0 y1,
      ComposedPerm.applyBoth c0 c1 op x0 x1 = .ok (c0', c1', ⟨x0.cols, y0⟩, ⟨x0.cols, y1⟩) ∧
      CompInv n W0 (o0 + x0.cols) W1 (o1 + x0.cols) c0' c1' ∧
      c0'.snd.perm = c0.snd.perm ∧ c1'.snd.perm = c1.snd.perm ∧
      Shape n x0.cols y0 ∧ Shape n x0.cols y1 ∧
      xm y0 y1 = permRows op (gather c1.snd.perm.pi c0.snd.perm.pi) (xm x0.rows x1.rows) := by
  have g0 := guard_ok (x := x0) h.cor0 (by rw [h.idx0]; omega) hx0 h0
  have g1 := guard_ok (x := x1) h.cor1 (by rw [h.idx1]; exact Nat.le_refl 1) (by rw [hc]; exact hx1) (by rw [hc]; exact h1)
  have hx := xm_shape hx0 hx1
  have hp0 := h.cor0.perm
  have hp1 := h.cor1.perm
  have hl : c1.snd.perm.pi.length = c0.snd.perm.pi.length := by rw [h.cor0.len, h.cor1.len]
  have hb1 : ∀ i ∈ c1.snd.perm.pi, i < c0.snd.perm.pi.length := by rw [← hl]; exact hp1.1
  have hb0 : ∀ i ∈ c0.snd.perm.pi, i < (xm x0.rows x1.rows).length := by
    rw [hx.1, ← h.cor0.len]; exact hp0.1
  have hgp := gather_isPerm hp1 hp0 hl
  have hgl : (gather c1.snd.perm.pi c0.snd.perm.pi).length = n := by
    rw [gather_length hb1, h.cor1.len]
  simp only [ComposedPerm.applyBoth, g0, g1, ok_bind, ComposedPerm.receiverFirst, h.idx0, h.idx1]
  cases op with
  | regular =>
    obtain ⟨ya, yb, e, sa, sb, x⟩ := twoPhase_ok (a := c1) (b := c0) h.cor1 h.cor0 hn (op := .regular)
      (xa := x1) (xb := x0) (by rw [hc]; exact hx1) (by rw [hc]; exact hx0) hc.symm
      (by rw [hc]; exact h1) (by rw [hc]; exact h0)
    rw [hc] at e sa sb
    refine ⟨⟨c0.idx, { c0.snd with off := o0 + x0.cols }, { c0.rcv with off := o1 + x0.cols }⟩,
      ⟨c1.idx, { c1.snd with off := o1 + x0.cols }, { c1.rcv with off := o0 + x0.cols }⟩, yb, ya, ?_, ?_, ?_, ?_, sb, sa, ?_⟩
    rotate_left
    · exact ⟨h.idx0, h.idx1, h.cor0.step h0, h.cor1.step h1⟩
    · rfl
    · rfl
    · rw [xm_comm, x, xm_comm x1.rows x0.rows]
      simp only [permRows]
      exact gather_gather hb1 hb0
    · show (ComposedPerm.twoPhase c1 c0 .regular x1 x0 >>= _) = _
      rw [e]; rfl
  | inverse =>
    obtain ⟨ya, yb, e, sa, sb, x⟩ := twoPhase_ok (a := c0) (b := c1) h.cor0 h.cor1 hn (op := .inverse)
      (xa := x0) (xb := x1) hx0 hx1 hc h0 h1
    refine ⟨⟨c0.idx, { c0.snd with off := o0 + x0.cols }, { c0.rcv with off := o1 + x0.cols }⟩,
      ⟨c1.idx, { c1.snd with off := o1 + x0.cols }, { c1.rcv with off := o0 + x0.cols }⟩, ya, yb, ?_, ?_, ?_, ?_, sa, sb, ?_⟩
    rotate_left
    · exact ⟨h.idx0, h.idx1, h.cor0.step h0, h.cor1.step h1⟩
    · rfl
    · rfl
    · rw [x]
      simp only [permRows]
      -- both are inverse to `gather (gather p1 p0)`
      have s1 : Shape n x0.cols (gather (invList c1.snd.perm.pi) (xm x0.rows x1.rows)) :=
        permRows_shape (op := .inverse) hp1 h.cor1.len hx
      have s0 : Shape n x0.cols (gather (invList c0.snd.perm.pi)
          (gather (invList c1.snd.perm.pi) (xm x0.rows x1.rows))) :=
        permRows_shape (op := .inverse) hp0 h.cor0.len s1
      have k2 : gather (gather c1.snd.perm.pi c0.snd.perm.pi) (gather (invList c0.snd.perm.pi)
          (gather (invList c1.snd.perm.pi) (xm x0.rows x1.rows))) = xm x0.rows x1.rows := by
        rw [← gather_gather hb1 (by rw [s0.1, ← h.cor0.len]; exact hp0.1),
          (gather_cancel hp0 (by rw [s1.1, h.cor0.len])).2,
          (gather_cancel hp1 (by rw [hx.1, h.cor1.len])).2]
      have k3 := (gather_cancel hgp (x := gather (invList c0.snd.perm.pi)
          (gather (invList c1.snd.perm.pi) (xm x0.rows x1.rows))) (by rw [s0.1, hgl])).1
      rw [k2] at k3
      exact k3.symm
    · show ComposedPerm.twoPhase c0 c1 .inverse x0 x1 = _
      exact e

theorem composeBoth_ok {n W0 o0 W1 o1 : Nat} {c0 c1 : ComposedPerm}
    (h : CompInv n W0 o0 W1 o1 c0 c1) (hn : 0 < n) {s0 s1 : List (BitVec 32)}
    (hs0 : s0.length = n) (hs1 : s1.length = n) (h0 : o0 + 4 ≤ W0) (h1 : o1 + 4 ≤ W1) :
    ∃ c0' c1' d0 d1, ComposedPerm.composeBoth c0 c1 s0 s1 = .ok (c0', c1', d0, d1) ∧
      CompInv n W0 (o0 + 4) W1 (o1 + 4) c0' c1' ∧
      c0'.snd.perm = c0.snd.perm ∧ c1'.snd.perm = c1.snd.perm ∧
      d0.length = n ∧ d1.length = n ∧
      List.zipWith (· ^^^ ·) d0 d1 =
        gather (gather c1.snd.perm.pi c0.snd.perm.pi) (List.zipWith (· ^^^ ·) s0 s1) := by
  obtain ⟨c0', c1', y0, y1, e, hi, p0, p1, sh0, sh1, x⟩ := composed_applyBoth_ok h hn (op := .regular)
    (x0 := u32Mat s0) (x1 := u32Mat s1) (by rw [← hs0]; exact u32Mat_shape s0)
    (by rw [← hs1]; exact u32Mat_shape s1) rfl h0 h1
  refine ⟨c0', c1', y0.map dec32, y1.map dec32, ?_, hi, p0, p1, by simp [sh0.1], by simp [sh1.1], ?_⟩
  · simp only [ComposedPerm.composeBoth, e, ok_bind]
    rw [matU32_ok sh0, ok_bind, matU32_ok sh1]; rfl
  · rw [zipWith_dec32 sh0 sh1, x]
    simp only [u32Mat, xm_u32, permRows, gather_map, List.map_map]
    rw [← List.map_id (gather _ (List.zipWith _ s0 s1))]
    simp only [List.map_map]
    apply List.map_congr_left
    intro w _
    exact dec32_u32Bytes w

theorem composed_derandomize_ok {n W0 o0 W1 o1 : Nat} {c0 c1 : ComposedPerm}
    (h : CompInv n W0 o0 W1 o1 c0 c1) (hn : 0 < n) {s0 s1 : List (BitVec 32)}
    (hs0 : s0.length = n) (hs1 : s1.length = n)
    (hp : IsPermList ((List.zipWith (· ^^^ ·) s0 s1).map BitVec.toNat)) (h1 : o1 + 4 ≤ W1) :
    ∃ c0' c1', ComposedPerm.derandomizeBoth c0 c1 s0 s1 = .ok (c0', c1') ∧
      CompInv n W0 o0 W1 (o1 + 4) c0' c1' ∧
      gather c1'.snd.perm.pi c0'.snd.perm.pi = (List.zipWith (· ^^^ ·) s0 s1).map BitVec.toNat := by
  have hpl : ((List.zipWith (· ^^^ ·) s0 s1).map BitVec.toNat).length = n := by simp [hs0, hs1]
  obtain ⟨y1, y0, e, sh1, sh0, x⟩ := applyBoth_ok h.cor1 hn (op := .inverse) (x := u32Mat s0)
    (xs := some (u32Mat s1)) (by rw [← hs0]; exact u32Mat_shape s0)
    (fun y hy => by simp at hy; subst hy; exact ⟨by rw [← hs1]; exact u32Mat_shape s1, rfl⟩) h1
  have hd : (List.zipWith (· ^^^ ·) (y1.map dec32) (y0.map dec32)).map BitVec.toNat =
      gather (invList c1.snd.perm.pi) ((List.zipWith (· ^^^ ·) s0 s1).map BitVec.toNat) := by
    rw [zipWith_dec32 sh1 sh0, x]
    simp only [u32Mat, joinIn, xm_u32, permRows, gather_map, List.map_map]
    apply List.map_congr_left
    intro w _
    simp [dec32_u32Bytes]
  have hinv := invList_isPerm h.cor1.perm
  have hil : (invList c1.snd.perm.pi).length = n := by rw [invList_length, h.cor1.len]
  have hq : IsPermList (gather (invList c1.snd.perm.pi)
      ((List.zipWith (· ^^^ ·) s0 s1).map BitVec.toNat)) :=
    gather_isPerm hinv hp (by rw [hil, hpl])
  have hql : (gather (invList c1.snd.perm.pi)
      ((List.zipWith (· ^^^ ·) s0 s1).map BitVec.toNat)).length = n := by
    rw [gather_length (by rw [hpl, ← hil]; exact hinv.1), hil]
  obtain ⟨msg, r', e1, e2, hi⟩ := derandomize_ok h.cor0 (q := ⟨gather (invList c1.snd.perm.pi)
      ((List.zipWith (· ^^^ ·) s0 s1).map BitVec.toNat)⟩) hq hql
  refine ⟨⟨0, _, { c0.rcv with off := o1 + 4 }⟩, ⟨1, { c1.snd with off := o1 + 4 }, r'⟩, ?_,
    ⟨rfl, rfl, hi, h.cor1.step h1⟩, ?_⟩
  · simp only [ComposedPerm.derandomizeBoth, h.idx0, h.idx1, e, ok_bind]
    simp only [bne_self_eq_false, Bool.false_or, Nat.reduceBEq, Bool.false_eq_true, if_false]
    rw [matU32_ok sh1, ok_bind, matU32_ok sh0, ok_bind]
    simp only [List.length_map, sh1.1, hs0, bne_self_eq_false, throwIf_false, ok_bind, hd, e1, e2]
    rfl
  · simp only
    exact (gather_cancel h.cor1.perm (by rw [hpl, h.cor1.len])).2

theorem composed_genPerm_ok {p : Perm} (hp : IsPermList p.pi) (draw : Nat → Nat) {bytes : Nat}
    {d0 b0 d1 b1 : List Row}
    (hd0 : Shape p.pi.length (16 * ((bytes + 15) / 16)) d0)
    (hb0 : Shape p.pi.length (16 * ((bytes + 15) / 16)) b0)
    (hd1 : Shape p.pi.length (16 * ((bytes + 15) / 16)) d1)
    (hb1 : Shape p.pi.length (16 * ((bytes + 15) / 16)) b1) :
    ∃ c0 c1, ComposedPerm.genPerm p draw bytes d0 b0 d1 b1 = .ok (c0, c1) ∧
      CompInv p.pi.length (16 * ((bytes + 15) / 16)) 0 (16 * ((bytes + 15) / 16)) 0 c0 c1 ∧
      gather c1.snd.perm.pi c0.snd.perm.pi = p.pi := by
  obtain ⟨l, hl, hperm⟩ := Perm.randomizeLoop_perm draw p.size p.size (Nat.le_refl _)
    (List.range p.size) (by simp)
  have hll : l.length = p.pi.length := by rw [hperm.length_eq, List.length_range]; rfl
  have hlp : IsPermList l := by rw [isPermList_iff_perm, hll]; exact hperm
  have hinv := invList_isPerm hlp
  have hil : p.pi.length = (invList l).length := by rw [invList_length, hll]
  have hs1 := gather_isPerm hp hinv hil
  have hbp : ∀ x ∈ p.pi, x < (invList l).length := by rw [← hil]; exact hp.1
  have hs1l : (gather p.pi (invList l)).length = p.pi.length := gather_length hbp
  obtain ⟨s0, r0, e0, q0, i0⟩ := genPerm_ok (p := ⟨l⟩) hlp (bytes := bytes) (delta := d0) (b := b0)
    (by simpa [hll] using hd0) (by simpa [hll] using hb0)
  obtain ⟨s1, r1, e1, q1, i1⟩ := genPerm_ok (p := ⟨gather p.pi (invList l)⟩) hs1 (bytes := bytes)
    (delta := d1) (b := b1) (by simpa [hs1l] using hd1) (by simpa [hs1l] using hb1)
  simp only [hll, hs1l] at i0 i1
  refine ⟨⟨0, s0, r1⟩, ⟨1, s1, r0⟩, ?_, ⟨rfl, rfl, i0, i1⟩, ?_⟩
  · simp only [ComposedPerm.genPerm, Perm.randomize, hl, ok_bind, Perm.inverse_eq (p := ⟨l⟩) hlp]
    rw [Perm.compose_eq hp.1 (by rw [Perm.size, Perm.size]; exact hil.symm), ok_bind, e0, ok_bind]
    simp only [e1, ok_bind]
  · simp only [q0, q1]
    rw [← gather_gather hbp (by rw [← invList_length l]; exact hinv.1), gather_invList_self hlp, hll]
    symm
    apply gather_ext
    · simpa using hp.1
    · rfl
    · intro i hi
      rw [List.getElem?_eq_getElem hi, List.getElem?_range (hp.1 _ (List.getElem_mem hi))]

end SecJoin
