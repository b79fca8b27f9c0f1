import Verif.TableOps.GroupByGmwLemmas
import Verif.TableOps.GroupByProps
/-!
# C34 with the evaluation of the circuits by GMW

In `GroupByProps.lean` the sort, the control bits, the sums and the new flags come from the functionality of GMW. Here the parties set the inputs of
each circuit from their own shares, exchange the messages of the protocol and read their own outputs.
-/
namespace SecJoin
namespace GroupBy
open OmJoin (colBytes GmwEnv shown)
open Extract (revRow)
open Gmw.Wires (Env Cir)

/-- **C34 with GMW**, for all keys for which the compared bits determine the whole key: the group-by whose circuits are all evaluated by the
protocol gives one active row for each group with the sums and the count, for every memory content, every valid OLEs and every OTs. -/
theorem C34_gmw {n L cs W0 o0 W1 o1 : Nat} {enc : Row → Row} {i0 i1 : Inp} {k0 k1 : BinMatrix} (h : SameInp n i0 i1)
    (hb : Bytes i0) (h2 : 2 ≤ n) (hn32 : n ≤ 2 ^ 32) (h1 : 1 ≤ L) (h8 : L ≤ 8)
    (hl0 : loadKeys cs enc i0 = .ok k0) (hl1 : loadKeys cs enc i1 = .ok k1) (hk : SameKeys n k0 k1) (hbits : 0 < k0.bits)
    (hcmp : ∀ a, a < n → ∀ b, b < n → (∀ t, t < 2 ^ Nat.log 2 k0.bits →
      bitOf (xorRow (k0.rows.getD a []) (k1.rows.getD a [])) t = bitOf (xorRow (k0.rows.getD b []) (k1.rows.getD b [])) t) →
      xorRow (k0.rows.getD a []) (k1.rows.getD a []) = xorRow (k0.rows.getD b []) (k1.rows.getD b []))
    (hkey : ∀ a, a < n → ∀ b, b < n → (xorRow (k0.rows.getD a []) (k1.rows.getD a []) = xorRow (k0.rows.getD b []) (k1.rows.getD b []) ↔
      shown i0.key i1.key a = shown i0.key i1.key b ∧ isAct i0 i1 a = isAct i0 i1 b))
    {G : GmwEnv} (hG : EnvOk G n k0.bits L (sizes i0)) (junk0 junk1 : Nat → Nat → Byte)
    {p0 p1 : ComposedPerm} (hp : ValidComposed n W0 o0 W1 o1 p0 p1)
    (hw0 : o0 + (flagByte i0 k0.bits + 1) + (sumBytes i0 + colBytes i0.key + 1) ≤ W0)
    (hw1 : o1 + 4 + (flagByte i0 k0.bits + 1) + (sumBytes i0 + colBytes i0.key + 1) ≤ W1) :
    ∃ t0 t1, groupByGmw L cs enc i0 i1 p0 p1 G junk0 junk1 = .ok (t0, t1) ∧ Grouped n i0 i1 t0 t1 := by
  obtain ⟨r, e, hf, hl, hr⟩ := groupByGmw_eq h h2 hn32 h1 h8 hl0 hl1 hk hbits hG junk0 junk1 hp (by omega) (by omega)
  rw [e]
  exact C34_group h hb h2 hn32 h1 h8 hl0 hl1 hk hbits hcmp hkey hf (by rw [hl]; exact hG.rounds) hr hp hw0 hw1

/-- **C34 with GMW** for keys of `2^k - 1` bits that are sorted as they are, with the correlation bytes of `init`. Missing: other widths, see
`C34_gmw_false`, columns that are not of whole bytes and keys replaced by a random code of them. -/
theorem C34_gmw_partial {n L cs k W : Nat} {enc : Row → Row} {i0 i1 : Inp} (h : SameInp n i0 i1)
    (hb : Bytes i0) (h2 : 2 ≤ n) (hn32 : n ≤ 2 ^ 32) (h1 : 1 ≤ L) (h8 : L ≤ 8)
    (hk : i0.key.info.bits + 1 = 2 ^ k) (hcs : 2 ^ k ≤ cs)
    (hpad : ∀ i, i < n → ∀ j, i0.key.info.bits ≤ j → bitOf (shown i0.key i1.key i) j = false)
    {G : GmwEnv} (hG : EnvOk G n (2 ^ k) L (sizes i0)) (junk0 junk1 : Nat → Nat → Byte)
    {p0 p1 : ComposedPerm} (hW : W = Extract.budget (permBytes (dataBits i0 (2 ^ k)) (2 ^ k) false))
    (hp : ValidComposed n W 0 W 0 p0 p1) :
    ∃ t0 t1, groupByGmw L cs enc i0 i1 p0 p1 G junk0 junk1 = .ok (t0, t1) ∧ Grouped n i0 i1 t0 t1 := by
  have hl0 : loadKeys cs enc i0 = .ok (plainKeys n i0) := loadKeys_plain h.k0.1 h.a0 (by omega)
  have hl1 : loadKeys cs enc i1 = .ok (plainKeys n i1) := loadKeys_plain h.k1.1 h.a1 (by rw [h.kb]; omega)
  have hkb : (plainKeys n i0).bits = 2 ^ k := hk
  have hbud := C34_budget i0 (ckBits := 2 ^ k)
  rw [← hW] at hbud
  obtain ⟨r, e, hf, hl, hr⟩ := groupByGmw_eq h h2 hn32 h1 h8 hl0 hl1 (plainKeys_same h) (by rw [hkb]; exact Nat.two_pow_pos k) (by rw [hkb]; exact hG)
    junk0 junk1 hp (by rw [hkb]; omega) (by rw [hkb]; omega)
  rw [e]
  exact C34_group_partial h hb h2 hn32 h1 h8 hk hcs hpad hf (by rw [hl]; exact hG.rounds) hr hW hp

/-- C34 is false for all other key widths also when the circuits are evaluated by the protocol. -/
theorem C34_gmw_false {L cs W : Nat} {enc : Row → Row} {i0 i1 : Inp} (h : SameInp 2 i0 i1) (h1 : 1 ≤ L) (h8 : L ≤ 8)
    (hk : ∀ k, i0.key.info.bits + 1 ≠ 2 ^ k) (hcs : i0.key.info.bits + 1 ≤ cs)
    (hsame : shown i0.key i1.key 0 = shown i0.key i1.key 1) (ha0 : isAct i0 i1 0 = false) (ha1 : isAct i0 i1 1 = true)
    {G : GmwEnv} (hG : EnvOk G 2 (i0.key.info.bits + 1) L (sizes i0)) (junk0 junk1 : Nat → Nat → Byte) {p0 p1 : ComposedPerm}
    (hW : W = Extract.budget (permBytes (dataBits i0 (i0.key.info.bits + 1)) (i0.key.info.bits + 1) false))
    (hp : ValidComposed 2 W 0 W 0 p0 p1) :
    isHead i0 i1 1 = true ∧ ∃ t0 t1, groupByGmw L cs enc i0 i1 p0 p1 G junk0 junk1 = .ok (t0, t1) ∧ t0.isActive.length = 2 ∧
      ∀ i, i < 2 → t0.isActive.getD i 0 ^^^ t1.isActive.getD i 0 = 0 := by
  have hl0 : loadKeys cs enc i0 = .ok (plainKeys 2 i0) := loadKeys_plain h.k0.1 h.a0 hcs
  have hl1 : loadKeys cs enc i1 = .ok (plainKeys 2 i1) := loadKeys_plain h.k1.1 h.a1 (by rw [h.kb]; omega)
  have hkb : (plainKeys 2 i0).bits = i0.key.info.bits + 1 := rfl
  have hbud := C34_budget i0 (ckBits := i0.key.info.bits + 1)
  rw [← hW] at hbud
  obtain ⟨r, e, hf, hl, hr⟩ := groupByGmw_eq h (by omega) (by omega) h1 h8 hl0 hl1 (plainKeys_same h) (by rw [hkb]; omega) (by rw [hkb]; exact hG)
    junk0 junk1 hp (by rw [hkb]; omega) (by rw [hkb]; omega)
  rw [e]
  exact C34_false h h1 h8 hk hcs hsame ha0 ha1 hf (by rw [hl]; exact hG.rounds) hr hW hp

/-- C34 with GMW and the removal of inactive rows. -/
theorem C34_gmw_removed {n L cs W0 o0 W1 o1 W2 o2 W3 o3 : Nat} {enc : Row → Row} {i0 i1 : Inp} {k0 k1 : BinMatrix} (h : SameInp n i0 i1)
    (hb : Bytes i0) (h2 : 2 ≤ n) (hn32 : n ≤ 2 ^ 32) (h1 : 1 ≤ L) (h8 : L ≤ 8)
    (hl0 : loadKeys cs enc i0 = .ok k0) (hl1 : loadKeys cs enc i1 = .ok k1) (hk : SameKeys n k0 k1) (hbits : 0 < k0.bits)
    (hcmp : ∀ a, a < n → ∀ b, b < n → (∀ t, t < 2 ^ Nat.log 2 k0.bits →
      bitOf (xorRow (k0.rows.getD a []) (k1.rows.getD a [])) t = bitOf (xorRow (k0.rows.getD b []) (k1.rows.getD b [])) t) →
      xorRow (k0.rows.getD a []) (k1.rows.getD a []) = xorRow (k0.rows.getD b []) (k1.rows.getD b []))
    (hkey : ∀ a, a < n → ∀ b, b < n → (xorRow (k0.rows.getD a []) (k1.rows.getD a []) = xorRow (k0.rows.getD b []) (k1.rows.getD b []) ↔
      shown i0.key i1.key a = shown i0.key i1.key b ∧ isAct i0 i1 a = isAct i0 i1 b))
    {G : GmwEnv} (hG : EnvOk G n k0.bits L (sizes i0)) (junk0 junk1 : Nat → Nat → Byte)
    {p0 p1 e0 e1 : ComposedPerm} (hp : ValidComposed n W0 o0 W1 o1 p0 p1)
    (hw0 : o0 + (flagByte i0 k0.bits + 1) + (sumBytes i0 + colBytes i0.key + 1) ≤ W0)
    (hw1 : o1 + 4 + (flagByte i0 k0.bits + 1) + (sumBytes i0 + colBytes i0.key + 1) ≤ W1)
    (hinfo : outInfo i0 = outInfo i1) (hnames : ((outInfo i0).map (·.name)).Nodup)
    (hv : ValidComposed n W2 o2 W3 o3 e0 e1) (hb0 : o2 + 1 + Extract.infoBytes (outInfo i0) ≤ W2)
    (hb1 : o3 + 1 + Extract.infoBytes (outInfo i0) ≤ W3) :
    ∃ u0 u1 w, groupByActiveGmw L cs enc i0 i1 p0 p1 e0 e1 G junk0 junk1 = .ok (u0, u1) ∧ u0.isActive = [] ∧ u1.isActive = [] ∧
      u0.WF w ∧ u1.WF w ∧ u0.getColumnInfo = outInfo i0 ∧ u1.getColumnInfo = outInfo i0 ∧
      ((List.range w).map (revRow u0 u1)).Perm (((List.range n).filter (isHead i0 i1)).map (groupRow n i0 i1)) := by
  obtain ⟨r, e, hf, hl, hr⟩ := groupByGmw_eq h h2 hn32 h1 h8 hl0 hl1 hk hbits hG junk0 junk1 hp (by omega) (by omega)
  obtain ⟨t0, t1, eg, hgr⟩ := C34_group h hb h2 hn32 h1 h8 hl0 hl1 hk hbits hcmp hkey hf (by rw [hl]; exact hG.rounds) hr hp hw0 hw1
  have ha : groupByActiveGmw L cs enc i0 i1 p0 p1 e0 e1 G junk0 junk1 = groupByActive L cs enc i0 i1 p0 p1 e0 e1 r := by
    unfold groupByActiveGmw groupByActive
    rw [e]
  rw [ha]
  exact C34_removed eg hgr (by omega) h.k0.1 hinfo hnames hv hb0 hb1

/-- C34 is false with the removal of inactive rows, see `C34_removed_false`, also when the circuits are evaluated by the protocol. -/
theorem C34_gmw_removed_false {n L cs W : Nat} {enc : Row → Row} {i0 i1 : Inp} {k0 k1 : BinMatrix} (h : SameInp n i0 i1)
    (h2 : 2 ≤ n) (hn32 : n ≤ 2 ^ 32) (h1 : 1 ≤ L) (h8 : L ≤ 8)
    (hl0 : loadKeys cs enc i0 = .ok k0) (hl1 : loadKeys cs enc i1 = .ok k1) (hk : SameKeys n k0 k1) (hbits : 0 < k0.bits)
    {G : GmwEnv} (hG : EnvOk G n k0.bits L (sizes i0)) (junk0 junk1 : Nat → Nat → Byte)
    {p0 p1 : ComposedPerm} (hW : W = Extract.budget (permBytes (dataBits i0 k0.bits) k0.bits true))
    (hp : ValidComposed n W 0 W 0 p0 p1) (hbig : 15 ≤ sumBytes i0 + colBytes i0.key) (e0 e1 : ComposedPerm) :
    groupByActiveGmw L cs enc i0 i1 p0 p1 e0 e1 G junk0 junk1 = .error .throw := by
  have hWv : 4 + (flagByte i0 k0.bits + 1) ≤ W := by
    rw [hW]
    unfold Extract.budget permBytes dataBits divCeil
    simp only [if_true]
    omega
  obtain ⟨r, e, hf, hl, hr⟩ := groupByGmw_eq h h2 hn32 h1 h8 hl0 hl1 hk hbits hG junk0 junk1 hp (by omega) (by omega)
  rw [← C34_removed_false h h2 hn32 h1 h8 hl0 hl1 hk hbits hf (by rw [hl]; exact hG.rounds) hr hW hp hbig e0 e1]
  unfold groupByActiveGmw groupByActive
  rw [e]

/-! ## The hypotheses can be met -/

/-- For every number of rows, key width and widths of the sums there are circuits and preprocessing for the evaluations. -/
theorem env_exists {n bits L : Nat} {ss : List Nat} (hn : 2 ≤ n) (hb : 0 < bits) (h1 : 1 ≤ L) (h8 : L ≤ 8) (hs : 0 < ss.sum)
    (junk : Nat → Nat → Gmw.Block) (pad : Nat → Nat → Bool) (padIn : Nat → Nat → Nat → Bool) : ∃ G : GmwEnv, EnvOk G n bits L ss := by
  have hA := Radix.addCir_exists (w := Radix.sumBits n) (by unfold Radix.sumBits; omega)
  have hH := Radix.hotCir_exists (L := L) (by omega)
  generalize (⟨(Radix.hotCircuit L).wireCount, (Radix.hotCircuit L).inputs, (Radix.hotCircuit L).outputs, (Radix.hotCircuit L).gates.map fun g => [g]⟩ : Cir) = hot at hH
  generalize (⟨(Radix.addCircuit (Radix.sumBits n)).wireCount, (Radix.addCircuit (Radix.sumBits n)).inputs, (Radix.addCircuit (Radix.sumBits n)).outputs,
    (Radix.addCircuit (Radix.sumBits n)).gates.map fun g => [g]⟩ : Cir) = add at hA
  obtain ⟨h0, h1', hh⟩ := Gmw.Wires.env_exists n hot junk junk pad pad
  obtain ⟨a0, a1, hha⟩ := Gmw.Wires.env_exists n add junk junk pad pad
  obtain ⟨cc, hcc⟩ := OmJoin.cir2_exists (wa := bits) (wb := bits) hb (OmJoin.ctrlBit bits) fun _ _ _ _ => OmJoin.ctrlBit_congr hb
  obtain ⟨cf, hcf⟩ := OmJoin.cir2_exists (wa := 1) (wb := 1) (by omega) (fun x y => Gmw.table .naAnd (x 0) (y 0))
    fun _ _ _ _ h h' => by rw [h 0 (by omega), h' 0 (by omega)]
  obtain ⟨_, _, _, _, hp, -⟩ := Agg.sizes_ok hn
  obtain ⟨T, hT⟩ := Agg.treeEnv_exists (w := ss.sum) hs .suf (addVec ss) hn hp junk pad padIn
  obtain ⟨c0, c1, hc⟩ := Gmw.Wires.env_exists n cc junk junk pad pad
  obtain ⟨b0, b1, hb'⟩ := Gmw.Wires.env_exists n cf junk junk pad pad
  let r : Radix.RoundEnv := ⟨⟨junk, junk, pad, pad, h0, h1'⟩, (anyRound n L).inj, (anyRound n L).otA, (anyRound n L).otB, ⟨junk, junk, pad, pad, a0, a1⟩⟩
  have hok := anyRound_ok n L
  have hr : r.Ok hot add n L := ⟨hok.inj, hok.otA, hok.otB, hok.rowsA, hok.rowsB, fun _ => hh, hha⟩
  obtain ⟨d0, d1, hd⟩ := anyComposed n 16
  refine ⟨⟨hot, add, r, List.replicate (divCeil bits L) (d0, d1, r), cc, _, T, cf, _⟩,
    ⟨hcc, hc, fun p h => by rw [hp] at h; injection h with h; exact h ▸ hT, hcf, hb', fun _ => hH, hA, hr, fun s hs => ?_, by simp⟩⟩
  rw [(List.mem_replicate.mp hs).2]
  exact ⟨_, _, _, _, hd, by decide, by decide, hr⟩

/-- Four rows, keys of seven bits, an inactive row, a column of 16 bits to add up. -/
example : ∃ (G : GmwEnv) (p0 p1 : ComposedPerm) (t0 t1 : Table), groupByGmw 2 48 id exA exB p0 p1 G (fun _ _ => 3) (fun _ _ => 5) = .ok (t0, t1) ∧
    Grouped 4 exA exB t0 t1 := by
  obtain ⟨G, hG⟩ := env_exists (n := 4) (bits := 2 ^ 3) (L := 2) (ss := sizes exA) (by decide) (by decide) (by decide) (by decide) (by decide) (fun _ _ => 5)
    (fun _ _ => true) (fun _ _ _ => true)
  obtain ⟨p0, p1, hp⟩ := anyComposed 4 (permBytes (dataBits exA (2 ^ 3)) (2 ^ 3) false)
  obtain ⟨t0, t1, e, h⟩ := C34_gmw_partial (k := 3) (cs := 48) (enc := id) ex_same (by unfold Bytes; decide) (by decide) (by decide) (by decide)
    (by decide) rfl (by decide) (by
      intro i hi j hj
      have hj' : 7 ≤ j := hj
      by_cases h8 : j < 8
      · have : j = 7 := by omega
        subst this
        have : i = 0 ∨ i = 1 ∨ i = 2 ∨ i = 3 := by omega
        rcases this with rfl | rfl | rfl | rfl <;> decide
      · apply bitOf_ge
        have : i = 0 ∨ i = 1 ∨ i = 2 ∨ i = 3 := by omega
        rcases this with rfl | rfl | rfl | rfl <;> simp [shown, exA, exB, xorRow] <;> omega) hG (fun _ _ => 3) (fun _ _ => 5) rfl hp
  exact ⟨G, p0, p1, t0, t1, e, h⟩

end GroupBy
end SecJoin
