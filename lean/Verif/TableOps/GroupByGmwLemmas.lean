import Verif.TableOps.GroupByGmw
import Verif.TableOps.GroupByLemmas
import Verif.Join.OmGmwLemmas
/-! # Lemmas for the group-by with the evaluation of its circuits -/
namespace SecJoin
namespace GroupBy
open OmJoin
open Radix (rank rankList_perm Ranked)

theorem addAt_lt : ∀ (ss : List Nat) (a b : Nat), addAt ss a b < 2 ^ ss.sum := by
  intro ss
  induction ss with
  | nil => intro a b; simp [addAt]
  | cons s ss ih =>
    intro a b
    rw [addAt, List.sum_cons, Nat.pow_add]
    have h1 := Nat.mod_lt (a % 2 ^ s + b % 2 ^ s) (Nat.two_pow_pos s)
    have h2 := Nat.mul_le_mul_left (2 ^ s) (ih (a / 2 ^ s) (b / 2 ^ s))
    rw [Nat.mul_succ] at h2
    omega

theorem addVec_toNat (ss : List Nat) (a b : BitVec ss.sum) : (addVec ss a b).toNat = addAt ss a.toNat b.toNat := by
  rw [addVec, BitVec.toNat_ofNat, Nat.mod_eq_of_lt (addAt_lt ss _ _)]

theorem addVec_assoc (ss : List Nat) (a b c : BitVec ss.sum) : addVec ss (addVec ss a b) c = addVec ss a (addVec ss b c) := by
  apply BitVec.eq_of_toNat_eq
  rw [addVec_toNat, addVec_toNat, addVec_toNat, addVec_toNat, addAt_assoc]

theorem rowVec_leaf (i : Inp) (r : Row) : (rowVec (sizes i).sum r).toNat = leafVal i r := by
  refine Nat.eq_of_testBit_eq fun j => ?_
  unfold leafVal
  rw [Nat.testBit_mod_two_pow, bytesNat_testBit, BitVec.testBit_toNat]
  by_cases hj : j < (sizes i).sum
  · rw [rowVec_bit _ _ hj, decide_eq_true hj, Bool.true_and]
    unfold bitOf
    rw [List.getD_eq_getElem?_getD, List.getD_eq_getElem?_getD, List.getElem?_take_of_lt (by unfold divCeil; omega)]
  · rw [BitVec.getLsbD_of_ge _ _ (by omega), decide_eq_false hj, Bool.false_and]

theorem natBytes_vec (w : Nat) (v : BitVec w) : natBytes (divCeil w 8) v.toNat = vecRow w v := by
  refine row_ext (by rw [natBytes_length, vecRow_length]) fun j hj => ?_
  rw [natBytes_length] at hj
  rw [bitOf_vecRow]
  unfold bitOf natBytes
  rw [getD_range _ (by omega), BitVec.getLsbD_ofNat, decide_eq_true (by omega), Bool.true_and,
    show 256 ^ (j / 8) = 2 ^ (8 * (j / 8)) by rw [Nat.pow_mul], Nat.testBit_div_two_pow, ← BitVec.testBit_toNat]
  congr 1
  omega

/-- The sums by GMW: shares of the rows with the sums, with the bytes that are not written. -/
theorem sumGmw_ok {T : Agg.TreeEnv} {n W : Nat} {i : Inp} {p : Agg.Params} (hn : 2 ≤ n) (hp : Agg.computeTreeSizes n = .ok p)
    (hT : T.Ok (sizes i).sum .suf (addVec (sizes i)) p) (junk0 junk1 : Nat → Nat → Byte)
    {d0 d1 : List Row} (s0 : Shape n W d0) (s1 : Shape n W d1) {g0 g1 : Nat → Bool} (h0 : g0 0 = false) (h1 : g1 0 = false) :
    ∃ a0 a1 sums, sumGmw T i junk0 junk1 d0 d1 ((List.range n).map fun j => bitByte (g0 j)) ((List.range n).map fun j => bitByte (g1 j)) = .ok (a0, a1) ∧
      Shape n (sumBytes i) a0 ∧ Shape n (sumBytes i) a1 ∧ sums.length = n ∧
      Agg.aggTree .suf (addAt (sizes i)) 0 ((List.zipWith xorRow d0 d1).map (leafVal i)) ((List.range n).map fun j => g0 j ^^ g1 j) = .ok sums ∧
      (List.range n).map (fun j => sumRow i (sums.getD j 0) fun b => junk0 j b ^^^ junk1 j b) = List.zipWith xorRow a0 a1 := by
  set w := (sizes i).sum with hw
  have hcb : ∀ g : Nat → Bool, ((List.range n).map fun i => bitByte (g i)).map (· != 0) = (List.range n).map g := fun g => by
    rw [List.map_map]
    exact List.map_congr_left fun i _ => bitByte_ne _
  obtain ⟨o0, o1, e, m0, m1, e'⟩ := Agg.aggTreeGmw_eq (T := T) (w := w) (t := .suf) (f := addVec (sizes i)) (xs0 := d0.map (rowVec w))
    (xs1 := d1.map (rowVec w)) (c0 := (List.range n).map g0) (c1 := (List.range n).map g1) (p := p) (by rw [List.length_map, s0.1]; exact hp) hT
    (by rw [List.length_map, s0.1]; exact hn) (by simp [s0.1, s1.1]) (by simp [s0.1]) (by simp [s0.1])
  rw [List.length_map, s0.1] at m0 m1
  have hz : List.zipWith (· ^^ ·) ((List.range n).map g0) ((List.range n).map g1) = (List.range n).map fun i => g0 i ^^ g1 i := by
    rw [List.zipWith_map, List.zipWith_self]
  have hx : List.zipWith (· ^^^ ·) (d0.map (rowVec w)) (d1.map (rowVec w)) = (List.zipWith xorRow d0 d1).map (rowVec w) := by
    rw [List.zipWith_map, List.map_zipWith]
    refine List.ext_getElem? fun i => ?_
    rw [List.getElem?_zipWith, List.getElem?_zipWith]
    by_cases hi : i < n
    · rw [List.getElem?_eq_getElem (by rw [s0.1]; exact hi), List.getElem?_eq_getElem (by rw [s1.1]; exact hi)]
      dsimp only
      rw [rowVec_xor _ (by rw [s0.2 _ (List.getElem_mem _), s1.2 _ (List.getElem_mem _)])]
    · rw [List.getElem?_eq_none (by rw [s0.1]; omega)]
  rw [hz, hx] at e'
  have hl : (List.zipWith xorRow d0 d1).length = n := by simp [s0.1, s1.1]
  obtain ⟨-, h⟩ := Agg.aggTree_map (op' := addAt (sizes i)) (addVec_assoc _) (addAt_assoc _) (φ := BitVec.toNat) (addVec_toNat _) 0 .suf
    (xs := (List.zipWith xorRow d0 d1).map (rowVec w)) (by rw [List.length_map, hl]; exact hn) (by simp [s0.1, s1.1])
    (by rw [List.getElem?_map, List.getElem?_range (by omega), Option.map_some, h0, h1]; rfl) e'
  rw [List.map_map, show (BitVec.toNat ∘ rowVec w) = leafVal i from funext (rowVec_leaf i)] at h
  have hsh : ∀ (junk : Nat → Nat → Byte) (o : List (BitVec w)), o.length = n → Shape n (sumBytes i) ((List.range o.length).map fun j =>
      vecRow w (o.getD j 0) ++ (List.range (sumBytes i - divCeil w 8)).map (junk j)) := fun junk o ho => by
    refine ⟨by simp [ho], fun r hr => ?_⟩
    obtain ⟨j, -, rfl⟩ := List.mem_map.1 hr
    have := sizes_le i
    rw [← hw] at this
    simp only [List.length_append, vecRow_length, List.length_map, List.length_range]
    omega
  refine ⟨_, _, _, ?_, hsh junk0 o0 m0, hsh junk1 o1 m1, ?_, h, ?_⟩
  · unfold sumGmw
    simp only []
    rw [hcb, hcb, e, ok_bind]
  · rw [List.length_map, List.length_zipWith, m0, m1, Nat.min_self]
  · rw [m0, m1, List.zipWith_map, List.zipWith_self]
    refine List.map_congr_left fun j hj => ?_
    rw [List.mem_range] at hj
    have hg : ((List.zipWith (· ^^^ ·) o0 o1).map BitVec.toNat).getD j 0 = (o0.getD j 0 ^^^ o1.getD j 0).toNat := by
      simp [List.getD_eq_getElem?_getD, m0, m1, hj]
    rw [hg, sumRow, ← hw, natBytes_vec, xorRow_append (by rw [vecRow_length, vecRow_length]), vecRow_xor]
    congr 1
    unfold xorRow
    rw [List.zipWith_map, List.zipWith_self]

theorem backGmw_eq {n : Nat} {i : Inp} {a : List Row} (h : a.length = n) (t : List Row) (f : Nat → Bool) :
    backGmw i a t ((List.range n).map fun j => bitByte (f j)) = back i a t f := by
  unfold backGmw back
  rw [h]
  have hmc : ∀ {α β : Type} (l : List α) (f g : α → Res β), (∀ x ∈ l, f x = g x) → mapRes f l = mapRes g l := fun {α β} l f g => by
    induction l with
    | nil => intro _; rfl
    | cons x l ih => intro h; simp only [mapRes]; rw [h x List.mem_cons_self, ih fun y hy => h y (List.mem_cons_of_mem _ hy)]
  refine hmc _ _ _ fun j hj => ?_
  rw [List.mem_range] at hj
  rw [getD_range _ hj]
  rfl

/-- What the protocols of the group-by need. -/
structure EnvOk (G : GmwEnv) (n bits L : Nat) (ss : List Nat) : Prop where
  ctrlC : Cir2 bits bits (ctrlBit bits) G.ctrl
  ctrl : G.ctrlE.Ok n G.ctrl
  tree : ∀ p, Agg.computeTreeSizes n = .ok p → G.tree.Ok ss.sum .suf (addVec ss) p
  flagC : Cir2 1 1 (fun x y => Gmw.table .naAnd (x 0) (y 0)) G.flag
  flag : G.flagE.Ok n G.flag
  hotC : L ≠ 1 → Radix.HotCir L G.hot
  addC : Radix.AddCir (Radix.sumBits n) G.add
  first : G.first.Ok G.hot G.add n L
  rest : ∀ s ∈ G.rest, Radix.PreEnv G.hot G.add n L s
  rounds : divCeil bits L ≤ G.rest.length + 1

/-- The group-by after the sort is the one of the functionality, for party 0's shares as the protocol leaves them. -/
theorem groupSortedGmw_eq {n L W0 o0 W1 o1 : Nat} {i0 i1 : Inp} {k0 k1 : BinMatrix} (h : SameInp n i0 i1) (hk : SameKeys n k0 k1)
    (h2 : 2 ≤ n) (hb : 0 < k0.bits) {sk : Nat → Nat} {s0 s1 : List (BitVec 32)} (hs : Ranked n sk s0 s1)
    {p0 p1 : ComposedPerm} (hp : CompInv n W0 o0 W1 o1 p0 p1)
    (hw0 : o0 + (flagByte i0 k0.bits + 1) ≤ W0) (hw1 : o1 + 4 + (flagByte i0 k0.bits + 1) ≤ W1) {G : GmwEnv} (hG : EnvOk G n k0.bits L (sizes i0))
    (junk0 junk1 : Nat → Nat → Byte) :
    ∃ (agg : Nat → Row) (flag : Nat → Bool) (junk : Nat → Nat → Byte), ∀ first rest,
      groupSortedGmw i0 i1 k0 k1 s0 s1 p0 p1 G junk0 junk1 = groupSorted i0 i1 k0 k1 s0 s1 p0 p1 ⟨first, rest, agg, flag, junk⟩ := by
  obtain ⟨m1, m2, m3, m4, m5, m6⟩ := h.sums
  have hk1 : Shape n (colBytes i1.key) i1.key.data.rows := by rw [m6]; exact h.k1
  obtain ⟨c0, d0⟩ := concat_ok (ck := k0) 0 h.k0 m4 hk.s0 hk.bytes h.a0
  obtain ⟨c1, d1⟩ := concat_ok (ck := k1) 1 hk1 m5 (by rw [hk.cols]; exact hk.s1) (by rw [hk.cols, hk.bits]; exact hk.bytes) h.a1
  have hfl : flagByte i1 k1.bits = flagByte i0 k0.bits := by unfold flagByte; rw [m2, m6, hk.bits]
  rw [hfl] at d1
  set fb := flagByte i0 k0.bits with hfb
  set off := sumBytes i0 + colBytes i0.key with hoff
  have hfo : fb = off + divCeil k0.bits 8 := rfl
  have hRp := rankList_perm n sk
  obtain ⟨p0', p1', ed, hi, -⟩ := composed_derandomize_ok hp (by omega) hs.1 hs.2.1 (by rw [hs.list]; exact hRp) (by omega)
  obtain ⟨p0a, p1a, t0, t1, ea, -, -, -, st0, st1, -⟩ := composed_applyBoth_ok hi (by omega) (op := .inverse)
    (x0 := ⟨fb + 1, (List.range n).map (packedRow 0 i0 k0)⟩) (x1 := ⟨fb + 1, (List.range n).map (packedRow 1 i1 k1)⟩) d0 d1 rfl
    (by show o0 + (fb + 1) ≤ W0; omega) (by show o1 + 4 + (fb + 1) ≤ W1; omega)
  simp only at st0 st1 ea
  have hsl : ∀ t : List Row, Shape n (fb + 1) t → mapRes (slice off (divCeil k0.bits 8)) t = .ok (t.map fun r => (r.drop off).take (divCeil k0.bits 8)) :=
    fun t st => mapRes_ok (g := fun r : Row => (r.drop off).take (divCeil k0.bits 8)) fun r hr => slice_ok (by rw [st.2 r hr]; omega)
  obtain ⟨g0, g1, ec, z0, z1, ecb⟩ := ctrl_ok (off := off) (size := divCeil k0.bits 8) (by omega) hb (by unfold divCeil; omega) hG.ctrlC hG.ctrl st0 st1
  obtain ⟨_, _, _, _, hp', -⟩ := Agg.sizes_ok h2
  obtain ⟨a0, a1, sums, et, sa0, sa1, sl, esum, hrows⟩ := sumGmw_ok h2 hp' (hG.tree _ hp') junk0 junk1 st0 st1 z0 z1
  have hrd : ∀ t : List Row, Shape n (fb + 1) t → mapRes (flagBit fb) t = .ok (t.map fun r => bitByte ((r.getD fb 0).getLsbD 0)) :=
    fun t st => mapRes_ok (g := fun r : Row => bitByte ((r.getD fb 0).getLsbD 0)) fun r hr => by
      have := st.2 r hr
      unfold flagBit rd
      rw [List.getD_eq_getElem?_getD, List.getElem?_eq_getElem (by omega)]
      rfl
  obtain ⟨r0, r1, ef, hf⟩ := flagGmw_ok (g := Gmw.table .naAnd) (n := n) (by omega) hG.flagC hG.flag (c0 := (List.range n).map fun i => bitByte (g0 i))
    (c1 := (List.range n).map fun i => bitByte (g1 i)) (f0 := t0.map fun r => bitByte ((r.getD fb 0).getLsbD 0))
    (f1 := t1.map fun r => bitByte ((r.getD fb 0).getLsbD 0)) (by simp) (by simp) (by simp [st0.1]) (by simp [st1.1])
  refine ⟨fun i => a0.getD i [], r0, fun j b => junk0 j b ^^^ junk1 j b, fun first rest => ?_⟩
  have hnew : back i1 a1 t1 (fun j => r0 j ^^ ((List.range n).map fun j => Gmw.table .naAnd (((List.range n).map fun i => g0 i ^^ g1 i).getD j false)
      ((((List.zipWith xorRow t0 t1).getD j []).getD fb 0).getLsbD 0)).getD j false) = back i1 a1 t1 r1 := by
    rw [← backGmw_eq sa1.1, ← backGmw_eq sa1.1]
    refine congrArg _ (List.map_congr_left fun j hj => congrArg bitByte ?_)
    rw [List.mem_range] at hj
    have h := hf j hj
    rw [getD_range _ hj, getD_range _ hj, bitByte_bit, bitByte_bit, getD_map _ t0 (by rw [st0.1]; exact hj) [], getD_map _ t1 (by rw [st1.1]; exact hj) [],
      bitByte_bit, bitByte_bit] at h
    have hx : ((List.zipWith xorRow t0 t1).getD j []).getD fb 0 = (t0.getD j []).getD fb 0 ^^^ (t1.getD j []).getD fb 0 := by
      rw [xm_getD st0 st1 hj]
      have l0 := shape_getD st0 hj
      have l1 := shape_getD st1 hj
      unfold xorRow
      generalize t0.getD j [] = x at *
      generalize t1.getD j [] = y at *
      simp [List.getD_eq_getElem?_getD, show fb < x.length by omega, show fb < y.length by omega]
    rw [getD_range _ hj, getD_range _ hj, hx, BitVec.getLsbD_xor, ← h]
    cases r0 j <;> cases r1 j <;> rfl
  unfold groupSortedGmw groupSorted
  simp only []
  rw [c0, ok_bind, ok_bind, c1, ok_bind, ok_bind, ed, ok_bind, ok_bind]
  simp only []
  rw [← hfb, ea, ok_bind, ok_bind]
  simp only []
  rw [m2, m6, hk.bits, ← hoff, hsl t0 st0, ok_bind, hsl t1 st1, ok_bind, hrd t0 st0, ok_bind, hrd t1 st1, ok_bind, hk.s0.1, ec, ok_bind, ecb, ok_bind]
  simp only []
  rw [et, ok_bind, esum, ok_bind]
  simp only []
  rw [ef, ok_bind, sl, hrows, shareRows_of sa0 sa1, xl_length st0 st1]
  simp only []
  rw [backGmw_eq sa0.1, backGmw_eq sa1.1, hnew]

/-- The whole group-by with GMW is the one of the functionality for some randomness of it. -/
theorem groupByGmw_eq {n L cs W0 o0 W1 o1 : Nat} {enc : Row → Row} {i0 i1 : Inp} {k0 k1 : BinMatrix} (h : SameInp n i0 i1)
    (h2 : 2 ≤ n) (hn32 : n ≤ 2 ^ 32) (h1 : 1 ≤ L) (h8 : L ≤ 8)
    (hl0 : loadKeys cs enc i0 = .ok k0) (hl1 : loadKeys cs enc i1 = .ok k1) (hk : SameKeys n k0 k1) (hb : 0 < k0.bits)
    {G : GmwEnv} (hG : EnvOk G n k0.bits L (sizes i0)) (junk0 junk1 : Nat → Nat → Byte)
    {p0 p1 : ComposedPerm} (hp : ValidComposed n W0 o0 W1 o1 p0 p1)
    (hw0 : o0 + (flagByte i0 k0.bits + 1) ≤ W0) (hw1 : o1 + 4 + (flagByte i0 k0.bits + 1) ≤ W1) :
    ∃ r : Rnd, groupByGmw L cs enc i0 i1 p0 p1 G junk0 junk1 = groupBy L cs enc i0 i1 p0 p1 r ∧ r.first.Ok n L ∧ r.rest.length = G.rest.length ∧
      ∀ s ∈ r.rest, Radix.PreOk n L s := by
  obtain ⟨q, rs, hqs, hrs, e⟩ := Radix.genPermGmw_eq (bits := k0.bits) (by omega) hn32 h1 hG.hotC hG.addC k0 k1 hG.first fun s hs => by
    obtain ⟨_, _, _, _, _, _, _, ho⟩ := hG.rest s hs
    exact ho
  have hlr : (List.zipWith (fun s q => (s.1, s.2.1, q)) G.rest rs).length = G.rest.length := by
    rw [List.length_zipWith, ← hrs.length_eq, Nat.min_self]
  have hpre := Radix.preOk_of hrs hG.rest
  obtain ⟨s0, s1, es, hs⟩ := Radix.genPerm_ok (n := n) (bits := k0.bits) (L := L) (by omega) hn32 hb h1 h8 rfl hk.bits
    (by rw [hk.bytes]; unfold divCeil; omega) hk.cols hk.s0 hk.s1 (hqs.ok hG.first)
    (by rw [hlr]; exact hG.rounds) (fun s hs => by
      obtain ⟨W0, o0, W1, o1, hv, r0, r1, ho⟩ := hpre s hs
      exact ⟨W0, o0, W1, o1, validComposed_iff.mp hv, ho, r0, r1⟩)
  obtain ⟨agg, flag, junk, ej⟩ := groupSortedGmw_eq h hk h2 hb hs (validComposed_iff.mp hp) hw0 hw1 hG junk0 junk1
  refine ⟨⟨q, _, agg, flag, junk⟩, ?_, hqs.ok hG.first, hlr, hpre⟩
  unfold groupByGmw groupBy
  rw [hl0, ok_bind, ok_bind, hl1, ok_bind, ok_bind, hk.s0.1, e, es, ok_bind, ok_bind]
  exact ej _ _

end GroupBy
end SecJoin
