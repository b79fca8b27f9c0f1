import Verif.Join.OmGmwLemmas
import Verif.Join.OmProps
/-!
# C31 and C32 with the evaluation of the circuits by GMW

In `OmProps.lean` the sort, the control bits, the duplication and the new flags come from the functionality of GMW. Here the parties set the
inputs of each circuit from their own shares, exchange the messages of the protocol and read their own outputs.
-/
namespace SecJoin
namespace OmJoin
open Gmw.Wires (Env Cir)

variable {nL nR : Nat}

/-- **C31 with GMW.** From shares of the keys the parties get shares of the control bits, for every memory content, every valid OLEs and every
OTs: zero in both for the first row, and for every other row the bit that tells whether its key agrees with the one of the row before in the
compared bits. Every byte of a share holds a single bit. -/
theorem C31_gmw {E : Env} {c : Cir} {n bits : Nat} (hn : 0 < n) (hb : 0 < bits) (hc : Cir2 bits bits (ctrlBit bits) c) (hE : E.Ok n c) {k0 k1 : List Row}
    (s0 : Shape n (divCeil bits 8) k0) (s1 : Shape n (divCeil bits 8) k1) :
    ∃ c0 c1, ctrlGmw E c n bits k0 k1 = .ok (c0, c1) ∧ c0.length = n ∧ c1.length = n ∧ c0[0]? = some 0 ∧ c1[0]? = some 0 ∧
      ∀ i, 0 < i → i < n → (c0.getD i 0 ^^^ c1.getD i 0) =
        if ∀ t, t < 2 ^ Nat.log 2 bits → bitOf (xorRow (k0.getD (i - 1) []) (k1.getD (i - 1) [])) t = bitOf (xorRow (k0.getD i []) (k1.getD i [])) t
          then 1 else 0 := by
  obtain ⟨g0, g1, e, z0, z1, hv⟩ := ctrlGmw_ok hn hb hc hE s0.1 s1.1
  refine ⟨_, _, e, by simp, by simp, ?_, ?_, fun i h0 hi => ?_⟩
  · rw [List.getElem?_map, List.getElem?_range hn, Option.map_some, z0]; rfl
  · rw [List.getElem?_map, List.getElem?_range hn, Option.map_some, z1]; rfl
  · rw [getD_range _ hi, getD_range _ hi]
    have hx : bitByte (g0 i) ^^^ bitByte (g1 i) = bitByte (g0 i ^^ g1 i) := by cases g0 i <;> cases g1 i <;> rfl
    have h1 := bitOf_xorRow (a := k0.getD (i - 1) []) (b := k1.getD (i - 1) []) (by rw [shape_getD s0 (by omega), shape_getD s1 (by omega)])
    have h2 := bitOf_xorRow (a := k0.getD i []) (b := k1.getD i []) (by rw [shape_getD s0 hi, shape_getD s1 hi])
    have hiff := ctrlBit_ok hb (fun j => bitOf (k0.getD (i - 1) []) j ^^ bitOf (k1.getD (i - 1) []) j) fun j => bitOf (k0.getD i []) j ^^ bitOf (k1.getD i []) j
    rw [hx, hv i h0 hi]
    simp only [h1, h2]
    unfold bitByte
    by_cases h : ∀ t, t < 2 ^ Nat.log 2 bits → (bitOf (k0.getD (i - 1) []) t ^^ bitOf (k1.getD (i - 1) []) t) = (bitOf (k0.getD i []) t ^^ bitOf (k1.getD i []) t)
    · rw [if_pos h, if_pos (hiff.2 h)]
    · rw [if_neg h, if_neg fun h' => h (hiff.1 h')]

/-- Without rows the call is refused, whichever party has none. -/
theorem C31_gmw_no_rows (E : Env) (c : Cir) (n bits : Nat) (k0 k1 : List Row) (h : k0 = [] ∨ k1 = []) : ctrlGmw E c n bits k0 k1 = .error .throw := by
  unfold ctrlGmw
  rcases h with rfl | rfl
  · rfl
  · cases k0 <;> rfl

/-- **C32 with GMW**, for all keys for which the compared bits determine the whole key: the join whose circuits are all evaluated by the protocol
gives the one-to-many join by the loaded keys. -/
theorem C32_gmw {n L cs W0 o0 W1 o1 : Nat} {enc : Row → Row} {q0 q1 : Query} {k0 k1 : BinMatrix} (hq : SameQuery nL nR q0 q1)
    (hn : n = nL + nR) (h2 : 2 ≤ n) (hn32 : n ≤ 2 ^ 32) (h1 : 1 ≤ L) (h8 : L ≤ 8)
    (hl0 : loadKeys cs enc q0.leftKey q0.rightKey = .ok k0) (hl1 : loadKeys cs enc q1.leftKey q1.rightKey = .ok k1)
    (hb : 0 < k0.bits) (hk0 : Shape n k0.cols k0.rows) (hk1 : Shape n k0.cols k1.rows)
    (hkey : ∀ a, a < n → ∀ b, b < n → (∀ t, t < 2 ^ Nat.log 2 k0.bits →
      bitOf (xorRow (k0.rows.getD a []) (k1.rows.getD a [])) t = bitOf (xorRow (k0.rows.getD b []) (k1.rows.getD b [])) t) →
      xorRow (k0.rows.getD a []) (k1.rows.getD a []) = xorRow (k0.rows.getD b []) (k1.rows.getD b []))
    {G : GmwEnv} (hG : G.Ok n k0.bits L (dataBytes q0.select q0.leftKey.info.bits))
    {p0 p1 : ComposedPerm} (hp : ValidComposed n W0 o0 W1 o1 p0 p1)
    (hw0 : o0 + dataBytes q0.select q0.leftKey.info.bits + (flagByte q0.select + 1) ≤ W0)
    (hw1 : o1 + 4 + dataBytes q0.select q0.leftKey.info.bits + (flagByte q0.select + 1) ≤ W1) :
    ∃ t0 t1, joinGmw L cs enc q0 q1 p0 p1 G = .ok (t0, t1) ∧
      OneToMany nL nR (fun a b => xorRow (k0.rows.getD a []) (k1.rows.getD a []) =
        xorRow (k0.rows.getD (nL + b) []) (k1.rows.getD (nL + b) [])) q0 q1 t0 t1 := by
  obtain ⟨r, e, hf, hl, hr⟩ := joinGmw_eq hq hn h2 hn32 h1 h8 hl0 hl1 hb hk0 hk1 hG hp hw0 hw1
  rw [e]
  exact C32_join hq hn h2 hn32 h1 h8 hl0 hl1 hb hk0 hk1 hkey hf (by rw [hl]; exact hG.rounds) hr hp hw0 hw1

/-- **C32 with GMW** for keys of `2^k` bits that are sorted as they are, with the correlation bytes of `init`. Missing: other widths, see
`C32_gmw_false`, and keys replaced by a random code of them. -/
theorem C32_gmw_partial {L cs k W : Nat} {enc : Row → Row} {q0 q1 : Query} (hq : SameQuery nL nR q0 q1)
    (hnL : 0 < nL) (hnR : 0 < nR) (hn32 : nL + nR ≤ 2 ^ 32) (h1 : 1 ≤ L) (h8 : L ≤ 8)
    (hk : q0.leftKey.info.bits = 2 ^ k) (hcs : 2 ^ k ≤ cs)
    (hpadL : ∀ i, i < nL → ∀ j, 2 ^ k ≤ j → bitOf (shown q0.leftKey q1.leftKey i) j = false)
    (hpadR : ∀ i, i < nR → ∀ j, 2 ^ k ≤ j → bitOf (shown q0.rightKey q1.rightKey i) j = false)
    {G : GmwEnv} (hG : G.Ok (nL + nR) (2 ^ k) L (dataBytes q0.select (2 ^ k))) {p0 p1 : ComposedPerm}
    (hW : W = 16 * ((permBytes (8 * dataBytes q0.select (2 ^ k)) (2 ^ k) + 15) / 16))
    (hp : ValidComposed (nL + nR) W 0 W 0 p0 p1) :
    ∃ t0 t1, joinGmw L cs enc q0 q1 p0 p1 G = .ok (t0, t1) ∧
      OneToMany nL nR (fun a b => shown q0.leftKey q1.leftKey a = shown q0.rightKey q1.rightKey b) q0 q1 t0 t1 := by
  have hl0 : loadKeys cs enc q0.leftKey q0.rightKey = .ok ⟨2 ^ k, divCeil (2 ^ k) 8, q0.leftKey.data.rows ++ q0.rightKey.data.rows⟩ := by
    exact loadKeys_ok.mpr ⟨hq.rb0.symm, by rw [hq.l0.1]; exact hnL, by rw [hq.r0.1]; exact hnR, by rw [if_pos (by omega), hk]⟩
  have hl1 : loadKeys cs enc q1.leftKey q1.rightKey = .ok ⟨2 ^ k, divCeil (2 ^ k) 8, q1.leftKey.data.rows ++ q1.rightKey.data.rows⟩ := by
    exact loadKeys_ok.mpr ⟨by rw [hq.lb, hq.rb1], by rw [hq.l1.1]; exact hnL, by rw [hq.r1.1]; exact hnR,
      by rw [if_pos (by rw [hq.lb]; omega), hq.lb, hk]⟩
  have hcb : colBytes q0.leftKey = divCeil (2 ^ k) 8 := by unfold colBytes; rw [hk]
  have hs0 := shape_append hq.l0 hq.r0
  have hs1 := shape_append hq.l1 hq.r1
  rw [hcb] at hs0 hs1
  have hbud := C33_generated q0.select (keyBits := 2 ^ k) (keySize := 2 ^ k) (by unfold divCeil; omega)
  rw [← hW] at hbud
  obtain ⟨r, e, hf, hl, hr⟩ := joinGmw_eq (cs := cs) (enc := enc) hq rfl (by omega) hn32 h1 h8 hl0 hl1 (Nat.two_pow_pos k) hs0 hs1 (by rw [hk]; exact hG) hp
    (by rw [hk]; omega) (by rw [hk]; omega)
  rw [e]
  exact C32_join_partial hq hnL hnR hn32 h1 h8 hk hcs hpadL hpadR hf (by rw [hl]; exact hG.rounds) hr hW hp

/-- C32 is false for other widths also when the circuits are evaluated by the protocol. -/
theorem C32_gmw_false : shown badQ0.leftKey badQ1.leftKey 0 ≠ shown badQ0.rightKey badQ1.rightKey 0 ∧
    ∀ {cs W : Nat} {enc : Row → Row} {G : GmwEnv} {p0 p1 : ComposedPerm}, 3 ≤ cs → G.rest = [] → G.Ok 2 3 3 3 → ValidComposed 2 W 0 W 0 p0 p1 →
      4 + 3 + 2 ≤ W → ∃ t0 t1 x0 x1, joinGmw 3 cs enc badQ0 badQ1 p0 p1 G = .ok (t0, t1) ∧
        t0.isActive.getD 0 0 ^^^ t1.isActive.getD 0 0 = 1 ∧ t0.cols[0]? = some x0 ∧ t1.cols[0]? = some x1 ∧
        shown x0 x1 0 = [20] := by
  refine ⟨C32_false.1, ?_⟩
  intro cs W enc G p0 p1 hcs hrest hG hp hW
  have hl0 : loadKeys cs enc badQ0.leftKey badQ0.rightKey = .ok ⟨3, 1, [[0], [4]]⟩ := by
    refine loadKeys_ok.mpr ⟨rfl, by decide, by decide, ?_⟩
    rw [if_pos (show badQ0.leftKey.info.bits ≤ cs from hcs)]
    rfl
  have hl1 : loadKeys cs enc badQ1.leftKey badQ1.rightKey = .ok ⟨3, 1, [[0], [0]]⟩ := by
    refine loadKeys_ok.mpr ⟨rfl, by decide, by decide, ?_⟩
    rw [if_pos (show badQ1.leftKey.info.bits ≤ cs from hcs)]
    rfl
  have hd : dataBytes badQ0.select badQ0.leftKey.info.bits = 3 := by decide
  have hf : flagByte badQ0.select = 1 := by decide
  obtain ⟨r, e, hf, hl, -⟩ := joinGmw_eq (n := 2) (L := 3) badQ_same rfl (by omega) (by omega) (by omega) (by omega) hl0 hl1 (by decide) (by unfold Shape; decide)
    (by unfold Shape; decide) (by rw [hd]; exact hG) hp (by rw [hd, hf]; omega) (by rw [hd, hf]; omega)
  have hr : r = { r with rest := [] } := by
    obtain ⟨a, b, c, d⟩ := r
    rw [hrest] at hl
    rw [show b = [] from List.length_eq_zero_iff.mp hl]
  rw [e, hr]
  exact C32_false.2 hcs hf hp hW

/-! ## The hypotheses can be met -/

/-- For every number of rows and key width there are circuits and preprocessing for the evaluations after the sort. -/
theorem gmwEnv_exists {n bits L w : Nat} (hn : 2 ≤ n) (hb : 0 < bits) (hw : 0 < w) {hot add : Cir} {first : Radix.RoundEnv}
    {rest : List (ComposedPerm × ComposedPerm × Radix.RoundEnv)} (hotC : L ≠ 1 → Radix.HotCir L hot) (addC : Radix.AddCir (Radix.sumBits n) add)
    (hf : first.Ok hot add n L) (hr : ∀ s ∈ rest, Radix.PreEnv hot add n L s) (hl : divCeil bits L ≤ rest.length + 1)
    (junk : Nat → Nat → Gmw.Block) (pad : Nat → Nat → Bool) (padIn : Nat → Nat → Nat → Bool) : ∃ G : GmwEnv, G.Ok n bits L w ∧ G.rest = rest := by
  obtain ⟨cc, hcc⟩ := cir2_exists (wa := bits) (wb := bits) hb (ctrlBit bits) fun _ _ _ _ => ctrlBit_congr hb
  obtain ⟨cf, hcf⟩ := cir2_exists (wa := 1) (wb := 1) (by omega) (fun x y => x 0 && y 0) fun _ _ _ _ h h' => by rw [h 0 (by omega), h' 0 (by omega)]
  obtain ⟨_, _, _, _, hp, -⟩ := Agg.sizes_ok hn
  obtain ⟨T, hT⟩ := Agg.treeEnv_exists (w := 8 * w) (by omega) .pre (fun a _ => a) hn hp junk pad padIn
  obtain ⟨a0, a1, ha⟩ := Gmw.Wires.env_exists n cc junk junk pad pad
  obtain ⟨b0, b1, hb'⟩ := Gmw.Wires.env_exists n cf junk junk pad pad
  exact ⟨⟨hot, add, first, rest, cc, _, T, cf, _⟩, ⟨hcc, ha, fun p h => by rw [hp] at h; injection h with h; exact h ▸ hT, hcf, hb', hotC, addC, hf, hr, hl⟩, rfl⟩

/-- Two left rows, one right row and keys of four bits; the sort in digits of two bits. -/
example : ∃ (G : GmwEnv) (p0 p1 : ComposedPerm), SameQuery 2 1 exQ0 exQ1 ∧ exQ0.leftKey.info.bits = 2 ^ 2 ∧
    (∀ i, i < 2 → shown exQ0.leftKey exQ1.leftKey i = [[6], [1]].getD i []) ∧ shown exQ0.rightKey exQ1.rightKey 0 = [6] ∧
    G.Ok 3 (2 ^ 2) 2 (dataBytes exQ0.select (2 ^ 2)) ∧
    ValidComposed 3 (16 * ((permBytes (8 * dataBytes exQ0.select (2 ^ 2)) (2 ^ 2) + 15) / 16)) 0 16 0 p0 p1 := by
  have hH := Radix.hotCir_exists (L := 2) (by decide)
  have hA := Radix.addCir_exists (w := Radix.sumBits 3) (by unfold Radix.sumBits; omega)
  generalize (⟨(Radix.hotCircuit 2).wireCount, (Radix.hotCircuit 2).inputs, (Radix.hotCircuit 2).outputs, (Radix.hotCircuit 2).gates.map fun g => [g]⟩ : Cir) = hot at hH
  generalize (⟨(Radix.addCircuit (Radix.sumBits 3)).wireCount, (Radix.addCircuit (Radix.sumBits 3)).inputs, (Radix.addCircuit (Radix.sumBits 3)).outputs,
    (Radix.addCircuit (Radix.sumBits 3)).gates.map fun g => [g]⟩ : Cir) = add at hA
  obtain ⟨h0, h1, hh⟩ := Gmw.Wires.env_exists 3 hot (fun _ _ => 7) (fun _ _ => 9) (fun _ _ => true) (fun _ _ => false)
  obtain ⟨a0, a1, hha⟩ := Gmw.Wires.env_exists 3 add (fun _ _ => 1) (fun _ _ => 2) (fun _ _ => true) (fun _ _ => true)
  let r : Radix.RoundEnv := ⟨⟨fun _ _ => 7, fun _ _ => 9, fun _ _ => true, fun _ _ => false, h0, h1⟩, Radix.exRnd3.inj, Radix.exRnd3.otA, Radix.exRnd3.otB,
    ⟨fun _ _ => 1, fun _ _ => 2, fun _ _ => true, fun _ _ => true, a0, a1⟩⟩
  have hr : r.Ok hot add 3 2 := ⟨Radix.exRnd3_ok.inj, Radix.exRnd3_ok.otA, Radix.exRnd3_ok.otB, Radix.exRnd3_ok.rowsA, Radix.exRnd3_ok.rowsB, fun _ => hh, hha⟩
  obtain ⟨c0, c1, h, -⟩ := exComposed
  obtain ⟨G, hG, -⟩ := gmwEnv_exists (n := 3) (bits := 2 ^ 2) (L := 2) (w := dataBytes exQ0.select (2 ^ 2)) (rest := [(c0, c1, r)]) (by omega) (by decide)
    (by decide) (fun _ => hH) hA hr (fun s hs => by
      rw [List.mem_singleton] at hs
      subst hs
      exact ⟨16, 0, 16, 0, h, by decide, by decide, hr⟩) (by simp [divCeil]) (fun _ _ => 5) (fun _ _ => true) (fun _ _ _ => true)
  exact ⟨G, c0, c1, exQ_same, rfl, by decide, by decide, hG, h⟩

end OmJoin
end SecJoin
