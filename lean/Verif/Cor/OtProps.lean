import Verif.Cor.CompressProps
/-!
# Delivered oblivious transfers: C45
-/
namespace SecJoin
namespace Cor

open Mod3 (Block)
open F2 (mkBlock byteOf getLsbD_mkBlock)
open Simd

/-! ## Plain OT -/

/-- **C45** (plain OT, mock). The receiver holds the message of its choice, for any encrypted batch number. -/
theorem C45_ot_mock (s : Block) (n : Nat) : (otMockSend s n).length = n ∧ (otMockRecv s n).1.length = n ∧ (otMockRecv s n).2.length = n ∧
    ∀ i, i < n → (otMockRecv s n).2.getD i 0 =
      if (otMockRecv s n).1.getD i false then ((otMockSend s n).getD i (0, 0)).2 else ((otMockSend s n).getD i (0, 0)).1 := by
  refine ⟨by simp [otMockSend], by simp [otMockRecv], by simp [otMockRecv], fun i hi => ?_⟩
  have e1 : (otMockSend s n).getD i (0, 0) = ((BitVec.ofNat 64 i ++ BitVec.ofNat 64 i : Block) ^^^ s,
      (~~~BitVec.ofNat 64 i ++ ~~~BitVec.ofNat 64 i : Block) ^^^ s) := getD_range_map _ _ _ _ hi
  have e2 : (otMockRecv s n).2.getD i 0 = if (otMockRecv s n).1.getD i false then (~~~BitVec.ofNat 64 i ++ ~~~BitVec.ofNat 64 i : Block) ^^^ s
      else (BitVec.ofNat 64 i ++ BitVec.ofNat 64 i : Block) ^^^ s := getD_range_map _ _ _ _ hi
  rw [e2, e1]

theorem slice_ok {T : Type} {l : List T} {b s : Nat} (h : b + s ≤ l.length) (d : T) :
    ∃ r, slice l b s = .ok r ∧ r.length = s ∧ ∀ i, i < s → r.getD i d = l.getD (b + i) d := by
  refine ⟨(l.drop b).take s, by rw [slice, if_neg (by omega)], by rw [List.length_take, List.length_drop]; omega, fun i hi => ?_⟩
  simp only [List.getD_eq_getElem?_getD]
  rw [List.getElem?_take_of_lt hi, List.getElem?_drop]

/-- **C45** (plain OT, delivery). Choices and messages of a piece are those of the same positions of the batch. -/
theorem C45_ot_deliver {snd : List (Block × Block)} {ch : List Bool} {msg : List Block} {n b s : Nat} (h1 : snd.length = n)
    (h2 : ch.length = n) (h3 : msg.length = n) (hv : ∀ i, i < n → msg.getD i 0 = if ch.getD i false then (snd.getD i (0, 0)).2 else (snd.getD i (0, 0)).1)
    (h : b + s ≤ n) :
    ∃ snd' ch' msg', slice snd b s = .ok snd' ∧ sliceChoice ch b s = .ok ch' ∧ slice msg b s = .ok msg' ∧
      snd'.length = s ∧ ch'.length = s ∧ msg'.length = s ∧
      (∀ i, i < s → ch'.getD i false = ch.getD (b + i) false) ∧
      ∀ i, i < s → msg'.getD i 0 = if ch'.getD i false then (snd'.getD i (0, 0)).2 else (snd'.getD i (0, 0)).1 := by
  obtain ⟨s', e1, l1, g1⟩ := slice_ok (l := snd) (b := b) (s := s) (by omega) (0, 0)
  obtain ⟨m', e3, l3, g3⟩ := slice_ok (l := msg) (b := b) (s := s) (by omega) 0
  obtain ⟨c', e2, l2, g2⟩ : ∃ r, sliceChoice ch b s = .ok r ∧ r.length = s ∧ ∀ i, i < s → r.getD i false = ch.getD (b + i) false := by
    by_cases hs : s = ch.length
    · exact ⟨ch, by rw [sliceChoice, if_pos hs], hs.symm, fun i _ => by rw [show b = 0 by omega, Nat.zero_add]⟩
    · obtain ⟨r, q1, q2, q3⟩ := slice_ok (l := ch) (b := b) (s := s) (by omega) false
      exact ⟨r, by rw [sliceChoice, if_neg hs, q1], q2, q3⟩
  refine ⟨s', c', m', e1, e2, e3, l1, l2, l3, g2, fun i hi => ?_⟩
  rw [g3 i hi, g2 i hi, g1 i hi]
  exact hv (b + i) (by omega)

example : ∃ snd' ch' msg', slice (otMockSend 5 300) 37 50 = .ok snd' ∧ sliceChoice (otMockRecv 5 300).1 37 50 = .ok ch' ∧
    slice (otMockRecv 5 300).2 37 50 = .ok msg' ∧
    ∀ i, i < 50 → msg'.getD i 0 = if ch'.getD i false then (snd'.getD i (0, 0)).2 else (snd'.getD i (0, 0)).1 := by
  obtain ⟨l1, l2, l3, hv⟩ := C45_ot_mock 5 300
  obtain ⟨a, b, c, e1, e2, e3, -, -, -, -, h⟩ := C45_ot_deliver l1 l2 l3 hv (b := 37) (s := 50) (by omega)
  exact ⟨a, b, c, e1, e2, e3, h⟩

/-! ## Trit OT -/

/-- The trit at position `p` of a pair of arrays: high bits, low bits. -/
def tritAt (m l : List Block) (p : Nat) : Nat := 2 * (bitAt m p).toNat + (bitAt l p).toNat

theorem IsTop_unique {x : Block} {s t : Nat} (h1 : Mod3.IsTop x s) (h2 : Mod3.IsTop x t) : s = t := by
  obtain ⟨hs, i, hi, e1, f1⟩ := h1
  obtain ⟨ht, j, hj, e2, f2⟩ := h2
  rcases Nat.lt_trichotomy i j with h | h | h
  · have := f1 j h hj; omega
  · subst h; omega
  · have := f2 i h hi; omega

/-- A pass of sampling. -/
theorem forTrits_ok (F : Nat → Block) {n : Nat} (h : ∀ p, p < 128 * n → F p ≠ BitVec.allOnes 128) :
    ∃ d, forTrits (fun t => Mod3.sample8 ((List.range 8).map fun j => F (8 * t + j)) 0 0 0) (128 * n / 8) = .ok d ∧
      (ofBytes (d.map (·.1))).length = n ∧ (ofBytes (d.map (·.2))).length = n ∧
      ∀ p, p < 128 * n → Mod3.IsTop (F p) (tritAt (ofBytes (d.map (·.1))) (ofBytes (d.map (·.2))) p) := by
  have hx : ∀ t, t < 128 * n / 8 → ∃ r : BitVec 8 × BitVec 8, Mod3.sample8 ((List.range 8).map fun j => F (8 * t + j)) 0 0 0 = .ok r ∧
      ∀ k, k < 8 → Mod3.IsTop (F (8 * t + k)) (2 * (r.1.getLsbD k).toNat + (r.2.getLsbD k).toNat) := by
    intro t ht
    obtain ⟨m, l, e, -, f⟩ := Mod3.sample8_ok ((List.range 8).map fun j => F (8 * t + j)) 0 0 0 (by simp)
      (by
        intro x hx
        obtain ⟨j, hj, rfl⟩ := List.mem_map.1 hx
        have := List.mem_range.1 hj
        exact h _ (by omega))
      (by intro k _; simp)
    refine ⟨(m, l), e, fun k hk => ?_⟩
    have := f k (by simpa using hk)
    rwa [getD_range_map _ _ _ _ hk, Nat.zero_add] at this
  have hx' : ∀ t, ∃ r : BitVec 8 × BitVec 8, t < 128 * n / 8 → Mod3.sample8 ((List.range 8).map fun j => F (8 * t + j)) 0 0 0 = .ok r ∧
      ∀ k, k < 8 → Mod3.IsTop (F (8 * t + k)) (2 * (r.1.getLsbD k).toNat + (r.2.getLsbD k).toNat) := by
    intro t
    by_cases ht : t < 128 * n / 8
    · obtain ⟨r, hr⟩ := hx t ht; exact ⟨r, fun _ => hr⟩
    · exact ⟨(0, 0), fun h => absurd h ht⟩
  obtain ⟨G, hG⟩ := Classical.axiomOfChoice hx'
  refine ⟨(List.range (128 * n / 8)).map G, mapRes_ok fun t ht => (hG t (List.mem_range.1 ht)).1, ?_, ?_, fun p hp => ?_⟩
  · rw [length_ofBytes]; simp; omega
  · rw [length_ofBytes]; simp; omega
  · have hq : p / 8 < 128 * n / 8 := by omega
    rw [tritAt, bitAt_ofBytes (by simp; omega), bitAt_ofBytes (by simp; omega), List.map_map, List.map_map,
      getD_range_map _ _ _ _ hq, getD_range_map _ _ _ _ hq]
    have := (hG (p / 8) hq).2 (p % 8) (by omega)
    rwa [show 8 * (p / 8) + p % 8 = p by omega] at this

/-- **C45** (trit OT, compressed). Unless a hash is all ones, both succeed, all messages are digits modulo three, and the receiver holds the
message of its choice, which is the lowest bit of its raw block. -/
theorem C45_trit_partial (H : Block → Block) (delta : Block) {A B : List Block} {n : Nat} (hA : A.length = 128 * n) (h : RawOt delta A B)
    (h0 : ∀ p, p < 128 * n → H (B.getD p 0 &&& maskOne) ≠ BitVec.allOnes 128)
    (h1 : ∀ p, p < 128 * n → H ((B.getD p 0 &&& maskOne) ^^^ (delta &&& maskOne)) ≠ BitVec.allOnes 128) :
    ∃ m0 l0 m1 l1 c m l, tritSend H delta B = .ok ((m0, l0), (m1, l1)) ∧ tritRecv H A = .ok (c, m, l) ∧
      m0.length = n ∧ l0.length = n ∧ m1.length = n ∧ l1.length = n ∧ c.length = n ∧ m.length = n ∧ l.length = n ∧
      ∀ p, p < 128 * n → bitAt c p = (A.getD p 0).getLsbD 0 ∧ tritAt m0 l0 p < 3 ∧ tritAt m1 l1 p < 3 ∧
        Mod3.IsTop (H (B.getD p 0 &&& maskOne)) (tritAt m0 l0 p) ∧
        Mod3.IsTop (H ((B.getD p 0 &&& maskOne) ^^^ (delta &&& maskOne))) (tritAt m1 l1 p) ∧
        tritAt m l p = if bitAt c p then tritAt m1 l1 p else tritAt m0 l0 p := by
  have hB : B.length = 128 * n := by rw [← h.1, hA]
  obtain ⟨d0, e0, a0, b0, t0⟩ := forTrits_ok (fun p => H (B.getD p 0 &&& maskOne)) h0
  obtain ⟨d1, e1, a1, b1, t1⟩ := forTrits_ok (fun p => H ((B.getD p 0 &&& maskOne) ^^^ (delta &&& maskOne))) h1
  obtain ⟨d, e, a, b, t⟩ := forTrits_ok (n := n) (fun p => H (A.getD p 0 &&& maskOne)) (by
    intro p hp
    rw [raw_hash (H := H) h (p := p) (by omega)]
    split
    · exact h1 p hp
    · exact h0 p hp)
  have hc : ∀ p, p < 128 * n →
      bitAt (ofBytes ((List.range (128 * n / 8)).map fun t => pack8 fun j => store32 (A.getD (8 * t + j) 0 &&& 1))) p = (A.getD p 0).getLsbD 0 :=
    fun p hp => packed_bit (fun i => store32 (A.getD i 0 &&& 1)) (fun i => (A.getD i 0).getLsbD 0) (fun i => store32_one _) hp
  have c1 : (128 * n % 128 != 0) = false := by simp
  refine ⟨_, _, _, _, ofBytes ((List.range (128 * n / 8)).map fun t => pack8 fun j => store32 (A.getD (8 * t + j) 0 &&& 1)), _, _,
    ?_, ?_, a0, b0, a1, b1, ?_, a, b, fun p hp => ⟨hc p hp, (t0 p hp).1, (t1 p hp).1, t0 p hp, t1 p hp, ?_⟩⟩
  · simp only [tritSend, hB, c1, throwIf_false, ok_bind, e0, e1]
  · simp only [tritRecv, hA, c1, throwIf_false, ok_bind, e]
  · rw [length_ofBytes]; simp; omega
  · have ht := t p hp
    simp only [raw_hash (H := H) h (p := p) (by omega)] at ht
    rw [hc p hp]
    cases hb : (A.getD p 0).getLsbD 0
    · rw [hb] at ht; exact IsTop_unique ht (t0 p hp)
    · rw [hb] at ht; exact IsTop_unique ht (t1 p hp)

example (delta : Block) : ∃ m0 l0 m1 l1 c m l, tritSend (fun x => x &&& maskOne) delta (exB 1) = .ok ((m0, l0), (m1, l1)) ∧
    tritRecv (fun x => x &&& maskOne) (exA delta 1) = .ok (c, m, l) ∧ bitAt c 77 = true ∧ tritAt m l 77 = tritAt m1 l1 77 := by
  obtain ⟨h, hl, hb⟩ := exRaw delta 1
  have hne : ∀ x : Block, x &&& maskOne ≠ BitVec.allOnes 128 := by
    intro x hx
    have := congrArg (fun b => b.getLsbD 0) hx
    simp only [BitVec.getLsbD_and, maskOne_bit (show 0 < 128 by omega)] at this
    simp at this
  obtain ⟨m0, l0, m1, l1, c, m, l, e1, e2, -, -, -, -, -, -, -, h3⟩ :=
    C45_trit_partial (fun x => x &&& maskOne) delta hl h (fun p _ => hne _) (fun p _ => hne _)
  obtain ⟨q1, -, -, -, -, q2⟩ := h3 77 (by omega)
  rw [hb 77 (by omega)] at q1
  refine ⟨m0, l0, m1, l1, c, m, l, e1, e2, q1, ?_⟩
  rw [q2, q1]; rfl

/-- The remaining case of **C45** is false: a hash that is all ones leaves the sampled trit undefined. -/
theorem C45_trit_false : ∃ (H : Block → Block) (delta : Block) (A B : List Block), RawOt delta A B ∧ A.length = 128 ∧
    tritSend H delta B = .error .ub ∧ tritRecv H A = .error .ub := by
  obtain ⟨h, hl, -⟩ := exRaw 0 1
  have hB : (exB 1).length = 128 := by simp [exB]
  have hf : forTrits (fun t => Mod3.sample8 ((List.range 8).map fun _ => BitVec.allOnes 128) 0 0 0) (128 / 8) = .error .ub := by
    rw [forTrits, show List.range (128 / 8) = 0 :: (List.range 15).map Nat.succ from rfl]
    simp only [mapRes, Mod3.sample8_err ((List.range 8).map fun _ => BitVec.allOnes 128) 0 0 0 (List.mem_map.2 ⟨0, by simp, rfl⟩), err_bind]
  have c1 : (128 % 128 != 0) = false := rfl
  refine ⟨fun _ => BitVec.allOnes 128, 0, exA 0 1, exB 1, h, hl, ?_, ?_⟩
  · simp only [tritSend, hB, c1, throwIf_false, ok_bind, hf, err_bind]
  · have hA : (exA 0 1).length = 128 := hl
    simp only [tritRecv, hA, c1, throwIf_false, ok_bind, hf, err_bind]

/-- **C45** (trit OT, mock). -/
theorem C45_trit_mock (n : Nat) : ∀ p, p < 128 * n →
    tritAt (tritMockSend n).1.1 (tritMockSend n).1.2 p < 3 ∧ tritAt (tritMockSend n).2.1 (tritMockSend n).2.2 p < 3 ∧
    tritAt (tritMockRecv n).2.1 (tritMockRecv n).2.2 p =
      if bitAt (tritMockRecv n).1 p then tritAt (tritMockSend n).2.1 (tritMockSend n).2.2 p
      else tritAt (tritMockSend n).1.1 (tritMockSend n).1.2 p := by
  intro p hp
  have hq : p / 128 < n := by omega
  have hr : p % 128 < 128 := by omega
  have rep : ∀ x : Block, (List.replicate n x).getD (p / 128) 0 = x := by
    intro x; simp [List.getD_eq_getElem?_getD, hq]
  simp only [tritMockSend, tritMockRecv, tritAt, bitAt, rep, getD_range_map _ _ _ _ hq, tritMsb0, tritMsb1, BitVec.getLsbD_and,
    BitVec.getLsbD_not, BitVec.getLsbD_xor, hr, decide_true, Bool.true_and]
  have lt3 : ∀ a b : Bool, 2 * ((!a && b).toNat) + (a && b).toNat < 3 := by decide
  have hl : ∀ l : Block, l &&& ccBlock = l → l.getLsbD (p % 128) = (l.getLsbD (p % 128) && ccBlock.getLsbD (p % 128)) := by
    intro l e; rw [← BitVec.getLsbD_and, e]
  have g0 := hl tritLsb0 (by decide)
  have g1 := hl tritLsb1 (by decide)
  clear lt3 hl rep
  generalize tritLsb0.getLsbD (p % 128) = a at *
  generalize tritLsb1.getLsbD (p % 128) = b at *
  generalize ccBlock.getLsbD (p % 128) = c at *
  generalize ((BitVec.ofNat 64 343524129893458929 ++ BitVec.ofNat 64 2453289232749293483 : Block).getLsbD (p % 128) ^^
    (BitVec.ofNat 64 (p / 128 * 2 ^ 32 + p / 128) ++ BitVec.ofNat 64 (p / 128 * 2 ^ 32 + p / 128) : Block).getLsbD (p % 128)) = d
  revert a b c d
  decide

/-! ## F4-bit OT -/

/-- What the raw correlation of the library satisfies: element 0 of the receiver's block carries the choice, and every other element is the
sender's plus `delta` times the choice. -/
def RawF4 (delta : Block) (A B : List Block) : Prop :=
  A.length = B.length ∧ ∀ p, p < A.length → ∀ i, 0 < i → i < 64 →
    F4.elem (A.getD p 0) i = F4.gadd (F4.elem (B.getD p 0) i) (F4.gmul (F4.elem delta i) (F4.elem (A.getD p 0) 0))

theorem maskTwo_elem (x : Block) {i : Nat} (hi : i < 64) : F4.elem (x &&& maskTwo) i = if i = 0 then (false, false) else F4.elem x i := by
  have e : maskTwo = BitVec.allOnes 128 <<< 2 := by decide
  have hb : ∀ p, p < 128 → maskTwo.getLsbD p = decide (2 ≤ p) := by
    intro p hp
    rw [e, BitVec.getLsbD_shiftLeft, BitVec.getLsbD_allOnes]
    by_cases h : 2 ≤ p
    · simp [h, hp]; omega
    · simp [h]
  simp only [F4.elem, BitVec.getLsbD_and, hb (2 * i) (by omega), hb (2 * i + 1) (by omega)]
  by_cases h : i = 0
  · simp [h]
  · simp [h, show 2 ≤ 2 * i by omega, show 2 ≤ 2 * i + 1 by omega]

/-- The number of a choice. -/
def choiceNum (lo hi : Bool) : Nat := lo.toNat + 2 * hi.toNat

/-- The four deltas. -/
theorem deltas_ok (w : Bool) (delta : Block) : ∃ d2 d3, F4.mul w (delta &&& maskTwo) 2 = .ok d2 ∧ F4.mul w (delta &&& maskTwo) 3 = .ok d3 ∧
    ∀ x : F4.GF4, ∀ i, i < 64 → F4.elem ([0, delta &&& maskTwo, d2, d3].getD (choiceNum x.1 x.2) 0) i = F4.gmul (F4.elem (delta &&& maskTwo) i) x := by
  obtain ⟨d2, e2, f2⟩ := F4.C46_mul w (delta &&& maskTwo) (r := 2) (by decide)
  obtain ⟨d3, e3, f3⟩ := F4.C46_mul w (delta &&& maskTwo) (r := 3) (by decide)
  refine ⟨d2, d3, e2, e3, ?_⟩
  rintro ⟨_ | _, _ | _⟩ i hi
  · show F4.elem 0 i = _
    simp [F4.elem, F4.gmul]
  · show F4.elem d2 i = _
    rw [f2 i hi]; rfl
  · show F4.elem (delta &&& maskTwo) i = _
    simp [F4.gmul]
  · show F4.elem d3 i = _
    rw [f3 i hi]; rfl

/-- **C45** (F4-bit OT, compressed). Both succeed and the receiver holds the bit of its choice, which is element 0 of its raw block. -/
theorem C45_f4 (w : Bool) (H : Block → Block) (delta : Block) {A B : List Block} {n : Nat} (hn : 0 < n) (hA : A.length = 128 * n)
    (h : RawF4 delta A B) :
    ∃ ots m lo hi, f4Send w H delta B = .ok ots ∧ f4Recv H A = .ok (m, lo, hi) ∧ ots.length = 4 ∧ (∀ o ∈ ots, o.length = n) ∧
      m.length = n ∧ lo.length = n ∧ hi.length = n ∧ ∀ p, p < 128 * n →
        (bitAt lo p, bitAt hi p) = F4.elem (A.getD p 0) 0 ∧
        bitAt m p = bitAt (ots.getD (choiceNum (bitAt lo p) (bitAt hi p)) []) p ∧
        bitAt (ots.getD 0 []) p = (H (B.getD p 0 &&& maskTwo)).getLsbD 0 ∧
        bitAt (ots.getD 1 []) p = (H ((B.getD p 0 &&& maskTwo) ^^^ (delta &&& maskTwo))).getLsbD 0 := by
  have hB : B.length = 128 * n := by rw [← h.1, hA]
  obtain ⟨d2, d3, e2, e3, hd⟩ := deltas_ok w delta
  have hlo : ∀ p, p < 128 * n →
      bitAt (ofBytes ((List.range (128 * n / 8)).map fun t => pack8 fun j => store32 (A.getD (8 * t + j) 0 &&& 1))) p = (A.getD p 0).getLsbD 0 :=
    fun p hp => packed_bit (fun i => store32 (A.getD i 0 &&& 1)) (fun i => (A.getD i 0).getLsbD 0) (fun i => store32_one _) hp
  have hhi : ∀ p, p < 128 * n →
      bitAt (ofBytes ((List.range (128 * n / 8)).map fun t => pack8Msb fun j => store32 (A.getD (8 * t + j) 0 &&& 2))) p = (A.getD p 0).getLsbD 1 :=
    fun p hp => packedMsb_bit (fun i => store32 (A.getD i 0 &&& 2)) (fun i => (A.getD i 0).getLsbD 1) (fun i => store32_two _) hp
  obtain ⟨O, hO⟩ : ∃ O : Block → List Block, O = fun d => of16 ((List.range (128 * n / 16)).map fun t => gather fun j =>
    H ((B.getD (16 * t + j) 0 &&& maskTwo) ^^^ d)) := ⟨_, rfl⟩
  have hOb : ∀ d p, p < 128 * n → bitAt (O d) p = (H ((B.getD p 0 &&& maskTwo) ^^^ d)).getLsbD 0 := by
    intro d p hp
    rw [hO]
    exact gathered_bit (fun i => H ((B.getD i 0 &&& maskTwo) ^^^ d)) hp
  refine ⟨[0, delta &&& maskTwo, d2, d3].map O,
    of16 ((List.range (128 * n / 16)).map fun t => gather fun j => H (A.getD (16 * t + j) 0 &&& maskTwo)),
    ofBytes ((List.range (128 * n / 8)).map fun t => pack8 fun j => store32 (A.getD (8 * t + j) 0 &&& 1)),
    ofBytes ((List.range (128 * n / 8)).map fun t => pack8Msb fun j => store32 (A.getD (8 * t + j) 0 &&& 2)), ?_, ?_, rfl, ?_, ?_, ?_, ?_, fun p hp => ⟨?_, ?_, ?_, ?_⟩⟩
  · rw [hO]
    simp only [f4Send, hB, if_neg (show ¬ 128 * n % 128 ≠ 0 by omega), e2, e3, ok_bind]
  · simp only [f4Recv, hA, if_neg (show ¬ (128 * n = 0 ∨ 128 * n % 128 ≠ 0) by omega)]
  · intro o ho
    obtain ⟨d, -, rfl⟩ := List.mem_map.1 ho
    rw [hO, length_of16]; simp; omega
  · rw [length_of16]; simp; omega
  · rw [length_ofBytes]; simp; omega
  · rw [length_ofBytes]; simp; omega
  · rw [hlo p hp, hhi p hp]; rfl
  · rw [hlo p hp, hhi p hp, gathered_bit (fun i => H (A.getD i 0 &&& maskTwo)) hp]
    obtain ⟨D, hD⟩ : ∃ D, D = [0, delta &&& maskTwo, d2, d3].getD (choiceNum ((A.getD p 0).getLsbD 0) ((A.getD p 0).getLsbD 1)) 0 := ⟨_, rfl⟩
    have hsel : ([0, delta &&& maskTwo, d2, d3].map O).getD (choiceNum ((A.getD p 0).getLsbD 0) ((A.getD p 0).getLsbD 1)) [] = O D := by
      rw [hD]
      cases (A.getD p 0).getLsbD 0 <;> cases (A.getD p 0).getLsbD 1 <;> rfl
    rw [hsel, hOb D p hp]
    congr 2
    apply F4.block_ext
    intro i hi
    have hx : F4.elem ((B.getD p 0 &&& maskTwo) ^^^ D) i = F4.gadd (F4.elem (B.getD p 0 &&& maskTwo) i) (F4.elem D i) := by
      simp [F4.elem, F4.gadd]
    rw [hx, hD, hd ((A.getD p 0).getLsbD 0, (A.getD p 0).getLsbD 1) i hi, maskTwo_elem _ hi, maskTwo_elem _ hi, maskTwo_elem _ hi]
    by_cases h0 : i = 0
    · simp [h0, F4.gadd, F4.gmul]
    · rw [if_neg h0, if_neg h0, if_neg h0]
      exact h.2 p (by omega) i (by omega) hi
  · show bitAt (O 0) p = _
    rw [hOb 0 p hp]; simp
  · exact hOb _ p hp

example (w : Bool) (H : Block → Block) (delta : Block) : ∃ A ots m lo hi, f4Send w H delta (exB 1) = .ok ots ∧
    f4Recv H A = .ok (m, lo, hi) ∧ bitAt lo 77 = true ∧ bitAt hi 77 = false ∧ bitAt m 77 = bitAt (ots.getD 1 []) 77 := by
  obtain ⟨F, hF⟩ : ∃ F : Nat → Block, F = fun i => ((BitVec.ofNat 128 (4 * i) &&& maskTwo) ^^^ (delta &&& maskTwo)) ||| 1 := ⟨_, rfl⟩
  have e0 : ∀ i, F4.elem (F i) 0 = (true, false) := by
    intro i
    have h1 := maskTwo_elem (BitVec.ofNat 128 (4 * i)) (i := 0) (by omega)
    have h2 := maskTwo_elem delta (i := 0) (by omega)
    simp only [F4.elem, if_true, Prod.mk.injEq] at h1 h2
    simp only [hF, F4.elem, BitVec.getLsbD_or, BitVec.getLsbD_xor, h1.1, h1.2, h2.1, h2.2]
    decide
  have ei : ∀ i k, 0 < k → k < 64 → F4.elem (F i) k = F4.gadd (F4.elem (BitVec.ofNat 128 (4 * i)) k) (F4.elem delta k) := by
    intro i k h0 hk
    have h1 := maskTwo_elem (BitVec.ofNat 128 (4 * i)) hk
    have h2 := maskTwo_elem delta hk
    rw [if_neg (by omega)] at h1 h2
    simp only [F4.elem, Prod.mk.injEq] at h1 h2
    simp only [hF, F4.elem, BitVec.getLsbD_or, BitVec.getLsbD_xor, h1.1, h1.2, h2.1, h2.2, F4.gadd]
    have o1 : (1 : Block).getLsbD (2 * k) = false := by simp [BitVec.getLsbD_one]; omega
    have o2 : (1 : Block).getLsbD (2 * k + 1) = false := by simp [BitVec.getLsbD_one]
    rw [o1, o2]; simp
  have h : RawF4 delta ((List.range 128).map F) (exB 1) := by
    refine ⟨by simp [exB], fun p hp i h0 hi => ?_⟩
    have hp' : p < 128 := by simpa using hp
    rw [exB, getD_range_map _ _ _ _ hp', getD_range_map _ _ _ _ (by omega), e0, ei _ _ h0 hi]
    simp [F4.gmul]
  obtain ⟨ots, m, lo, hi, e1, e2, -, -, -, -, -, hv⟩ := C45_f4 w H delta (n := 1) (by omega) (by simp) h
  obtain ⟨q1, q2, -, -⟩ := hv 77 (by omega)
  rw [getD_range_map _ _ _ _ (by omega), e0] at q1
  obtain ⟨q3, q4⟩ := Prod.mk.inj q1
  rw [q3, q4] at q2
  exact ⟨_, ots, m, lo, hi, e1, e2, q3, q4, q2⟩

/-- **C45** (F4-bit OT, mock). -/
theorem C45_f4_mock (n : Nat) : ∀ p, p < 128 * n → ∃ o, (f4MockSend n)[choiceNum (bitAt (f4MockRecv n).2.1 p) (bitAt (f4MockRecv n).2.2 p)]? = some o ∧
    o.length = n ∧ bitAt (f4MockRecv n).1 p = bitAt o p := by
  intro p hp
  have hz : bitAt (List.replicate n (0 : Block)) p = false := by
    have hq : p / 128 < n := by omega
    simp [bitAt, List.getD_eq_getElem?_getD, hq]
  refine ⟨List.replicate n 0, ?_, by simp, by simp [f4MockRecv]⟩
  show (f4MockSend n)[choiceNum (bitAt (List.replicate n (0 : Block)) p) (bitAt (List.replicate n (0 : Block)) p)]? = _
  rw [hz]; rfl

/-- **C45** (delivery of trit and F4-bit OT). A piece holds the same positions of the batch, so validity carries over. -/
theorem C45_deliver {l : List Block} {b s : Nat} (hb : b % 128 = 0) (hs : s % 128 = 0) (h : b + s ≤ 128 * l.length) :
    ∃ r, deliver l b s = .ok r ∧ 128 * r.length = s ∧ ∀ p, p < s → bitAt r p = bitAt l (b + p) := deliver_ok hb hs h

end Cor
end SecJoin
