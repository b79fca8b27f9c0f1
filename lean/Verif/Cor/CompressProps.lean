import Verif.Cor.CompressLemmas
/-!
# Delivered correlations: C44, C45, C57
-/
namespace SecJoin
namespace Cor

open Mod3 (Block)
open F2 (mkBlock byteOf getLsbD_mkBlock)
open Simd

theorem gathered_bit (F : Nat → Block) {n p : Nat} (hp : p < 128 * n) :
    bitAt (of16 ((List.range (128 * n / 16)).map fun t => gather fun j => F (16 * t + j))) p = (F p).getLsbD 0 := by
  rw [bitAt_of16 (by simp; omega), getD_range_map _ _ _ _ (by omega), gather_bit (by omega)]
  congr 2; omega

theorem packed_bit (b : Nat → BitVec 32) (c : Nat → Bool) (hb : ∀ i, b i = if c i then 1 else 0) {n p : Nat} (hp : p < 128 * n) :
    bitAt (ofBytes ((List.range (128 * n / 8)).map fun t => pack8 fun j => b (8 * t + j))) p = c p := by
  rw [bitAt_ofBytes (by simp; omega), getD_range_map _ _ _ _ (by omega),
    pack8_bit (c := fun j => c (8 * (p / 8) + j)) (by omega) (fun k _ => hb _)]
  congr 1; omega

theorem packedMsb_bit (b : Nat → BitVec 32) (c : Nat → Bool) (hb : ∀ i, b i = if c i then 2 else 0) {n p : Nat} (hp : p < 128 * n) :
    bitAt (ofBytes ((List.range (128 * n / 8)).map fun t => pack8Msb fun j => b (8 * t + j))) p = c p := by
  rw [bitAt_ofBytes (by simp; omega), getD_range_map _ _ _ _ (by omega),
    pack8Msb_bit (c := fun j => c (8 * (p / 8) + j)) (by omega) (fun k _ => hb _)]
  congr 1; omega

/-! ## Specification -/

/-- What the raw correlation of the library satisfies: the receiver's block is the sender's, plus `delta` where the receiver's lowest bit
is set; the lowest bit itself carries the choice. -/
def RawOt (delta : Block) (A B : List Block) : Prop :=
  A.length = B.length ∧ ∀ p, p < A.length →
    A.getD p 0 &&& maskOne = (B.getD p 0 &&& maskOne) ^^^ (if (A.getD p 0).getLsbD 0 then delta &&& maskOne else 0)

/-- A binary OLE of `n` positions: additive and multiplicative bits of the two parties. -/
def ValidOle (n : Nat) (sa sm ra rm : List Block) : Prop := ∀ p, p < n → (bitAt sm p && bitAt rm p) = (bitAt sa p ^^ bitAt ra p)

theorem raw_hash {H : Block → Block} {delta : Block} {A B : List Block} (h : RawOt delta A B) {p : Nat} (hp : p < A.length) :
    H (A.getD p 0 &&& maskOne) = if (A.getD p 0).getLsbD 0 then H ((B.getD p 0 &&& maskOne) ^^^ (delta &&& maskOne))
      else H (B.getD p 0 &&& maskOne) := by
  have e := h.2 p hp
  cases hc : (A.getD p 0).getLsbD 0
  · rw [hc] at e; simp only [Bool.false_eq_true, if_false] at e ⊢; rw [e]; congr 1; simp
  · rw [hc] at e; simp only [if_true] at e ⊢; rw [e]

/-- **C44** (compressed correlations). Both parties succeed and get an OLE at every position; the receiver's multiplicative bit is its
choice bit and the sender's is the difference of the two hashes. -/
theorem C44_compress (H : Block → Block) (delta : Block) {A B : List Block} {n : Nat} (hn : 0 < n) (hA : A.length = 128 * n)
    (h : RawOt delta A B) :
    ∃ sa sm ra rm, oleSend gather H delta B n n = .ok (sa, sm) ∧ oleRecv gather H A n n = .ok (ra, rm) ∧
      sa.length = n ∧ sm.length = n ∧ ra.length = n ∧ rm.length = n ∧ ValidOle (128 * n) sa sm ra rm ∧
      (∀ p, p < 128 * n → bitAt rm p = (A.getD p 0).getLsbD 0) ∧
      ∀ p, p < 128 * n → bitAt sm p = ((H (B.getD p 0 &&& maskOne)).getLsbD 0 ^^
        (H ((B.getD p 0 &&& maskOne) ^^^ (delta &&& maskOne))).getLsbD 0) := by
  have hB : B.length = 128 * n := by rw [← h.1, hA]
  have hz : ∀ (l : Nat) (f g : Nat → BitVec 16), List.zipWith (· ^^^ ·) ((List.range l).map f) ((List.range l).map g) =
      (List.range l).map fun t => f t ^^^ g t := by
    intro l f g
    simp [List.zipWith_map, List.zipWith_self]
  have hsm : ∀ p, p < 128 * n → bitAt (of16 (List.zipWith (· ^^^ ·)
      ((List.range (128 * n / 16)).map fun t => gather fun j => H (B.getD (16 * t + j) 0 &&& maskOne))
      ((List.range (128 * n / 16)).map fun t => gather fun j => H ((B.getD (16 * t + j) 0 &&& maskOne) ^^^ (delta &&& maskOne))))) p =
      ((H (B.getD p 0 &&& maskOne)).getLsbD 0 ^^ (H ((B.getD p 0 &&& maskOne) ^^^ (delta &&& maskOne))).getLsbD 0) := by
    intro p hp
    rw [hz, bitAt_of16 (by simp; omega), getD_range_map _ _ _ _ (by omega), BitVec.getLsbD_xor, gather_bit (by omega), gather_bit (by omega)]
    have e : 16 * (p / 16) + p % 16 = p := by omega
    rw [e]
  have hrm : ∀ p, p < 128 * n → bitAt (ofBytes ((List.range (128 * n / 8)).map fun t => pack8 fun j => testcOne (A.getD (8 * t + j) 0))) p =
      (A.getD p 0).getLsbD 0 := fun p hp =>
    packed_bit (fun i => testcOne (A.getD i 0)) (fun i => (A.getD i 0).getLsbD 0) (fun i => testcOne_eq _) hp
  have c1 : (n * 128 != 128 * n) = false := by simp [Nat.mul_comm]
  refine ⟨of16 ((List.range (128 * n / 16)).map fun t => gather fun j => H (B.getD (16 * t + j) 0 &&& maskOne)), _,
    of16 ((List.range (128 * n / 16)).map fun t => gather fun j => H (A.getD (16 * t + j) 0 &&& maskOne)), _,
    ?_, ?_, ?_, ?_, ?_, ?_, ?_, hrm, hsm⟩
  · simp only [oleSend, hB, c1, throwIf_false, ok_bind]
  · simp only [oleRecv, hA, c1, throwIf_false, ok_bind, if_neg (show 128 * n ≠ 0 by omega)]
  · rw [length_of16]; simp; omega
  · rw [length_of16]; simp; omega
  · rw [length_of16]; simp; omega
  · rw [length_ofBytes]; simp; omega
  · intro p hp
    rw [hsm p hp, hrm p hp, gathered_bit (fun i => H (B.getD i 0 &&& maskOne)) hp, gathered_bit (fun i => H (A.getD i 0 &&& maskOne)) hp,
      raw_hash (H := H) h (p := p) (by omega)]
    cases (A.getD p 0).getLsbD 0 <;> simp

/-- **C44** (sizes). Arrays of another size are refused. -/
theorem C44_size (g : (Nat → Block) → BitVec 16) (H : Block → Block) (delta : Block) {A : List Block} {na nm : Nat}
    (h : na * 128 ≠ A.length ∨ nm * 128 ≠ A.length) :
    oleSend g H delta A na nm = .error .throw ∧ oleRecv g H A na nm = .error .throw := by
  by_cases h1 : na * 128 = A.length
  · have h2 : nm * 128 ≠ A.length := by omega
    simp [oleSend, oleRecv, h1, h2, throwIf_ne]
  · simp [oleSend, oleRecv, h1, throwIf_ne]

/-- A piece of delivered blocks holds the same positions of the batch. -/
theorem deliver_ok {l : List Block} {b s : Nat} (hb : b % 128 = 0) (hs : s % 128 = 0) (h : b + s ≤ 128 * l.length) :
    ∃ r, deliver l b s = .ok r ∧ 128 * r.length = s ∧ ∀ p, p < s → bitAt r p = bitAt l (b + p) := by
  refine ⟨(l.drop (b / 128)).take (s / 128), ?_, ?_, ?_⟩
  · rw [deliver, if_neg (by omega), if_neg (by omega)]
  · rw [List.length_take, List.length_drop]; omega
  · intro p hp
    have e1 : (b + p) / 128 = b / 128 + p / 128 := by omega
    have e2 : (b + p) % 128 = p % 128 := by omega
    simp only [bitAt, e1, e2, List.getD_eq_getElem?_getD]
    rw [List.getElem?_take_of_lt (by omega), List.getElem?_drop]

/-- **C44** (delivery). Every piece of a valid batch that both parties take at the same place is valid. -/
theorem C44_deliver {sa sm ra rm : List Block} {n b s : Nat} (l1 : sa.length = n) (l2 : sm.length = n) (l3 : ra.length = n)
    (l4 : rm.length = n) (h : ValidOle (128 * n) sa sm ra rm) (hb : b % 128 = 0) (hs : s % 128 = 0) (hbs : b + s ≤ 128 * n) :
    ∃ sa' sm' ra' rm', deliver sa b s = .ok sa' ∧ deliver sm b s = .ok sm' ∧ deliver ra b s = .ok ra' ∧ deliver rm b s = .ok rm' ∧
      128 * sa'.length = s ∧ 128 * sm'.length = s ∧ 128 * ra'.length = s ∧ 128 * rm'.length = s ∧ ValidOle s sa' sm' ra' rm' := by
  obtain ⟨a, ha, la, ba⟩ := deliver_ok (l := sa) hb hs (by omega)
  obtain ⟨c, hc, lc, bc⟩ := deliver_ok (l := sm) hb hs (by omega)
  obtain ⟨d, hd, ld, bd⟩ := deliver_ok (l := ra) hb hs (by omega)
  obtain ⟨e, he, le, be⟩ := deliver_ok (l := rm) hb hs (by omega)
  refine ⟨a, c, d, e, ha, hc, hd, he, la, lc, ld, le, fun p hp => ?_⟩
  rw [ba p hp, bc p hp, bd p hp, be p hp]
  exact h (b + p) (by omega)

/-! ### The mock generator -/

/-- The block with these halves. -/
def Half.block (x : Half) : Block := x.1 ++ x.2

theorem block_xor (x y : Half) : x.block ^^^ y.block = Half.block (x.1 ^^^ y.1, x.2 ^^^ y.2) := by
  apply BitVec.eq_of_getLsbD_eq
  intro i hi
  simp only [Half.block, BitVec.getLsbD_xor, BitVec.getLsbD_append]
  split <;> rfl

/-- Sender, receiver and product, round by round. -/
theorem mockRounds_xor (n : Nat) : ∀ (s r m : Half) (ds dr dm : Half),
    (s.1 = 0 ∧ ds.1 = 0) → (r.2 = 0 ∧ dr.2 = 0) → (s.2 = m.2 ∧ ds.2 = dm.2) → (r.1 = m.1 ∧ dr.1 = dm.1) →
    (mockRounds ds n s).length = 8 * n ∧ (mockRounds dr n r).length = 8 * n ∧ (mockRounds dm n m).length = 8 * n ∧
    ∀ i, i < 8 * n → ((mockRounds ds n s).getD i (0, 0)).block ^^^ ((mockRounds dr n r).getD i (0, 0)).block =
      ((mockRounds dm n m).getD i (0, 0)).block := by
  induction n with
  | zero => intro s r m ds dr dm _ _ _ _; exact ⟨rfl, rfl, rfl, fun i hi => absurd hi (by omega)⟩
  | succ n ih =>
    intro s r m ds dr dm h1 h2 h3 h4
    obtain ⟨i1, i2, i3, i4⟩ := ih (s.add ds) (r.add dr) (m.add dm) ds dr dm
      ⟨by simp [Half.add, h1.1, h1.2], h1.2⟩ ⟨by simp [Half.add, h2.1, h2.2], h2.2⟩
      ⟨by simp [Half.add, h3.1, h3.2], h3.2⟩ ⟨by simp [Half.add, h4.1, h4.2], h4.2⟩
    refine ⟨by simp [mockRounds, i1]; omega, by simp [mockRounds, i2]; omega, by simp [mockRounds, i3]; omega, fun i hi => ?_⟩
    simp only [mockRounds, List.getD_eq_getElem?_getD]
    by_cases hi8 : i < 8
    · rw [List.getElem?_append_left (by simp; omega), List.getElem?_append_left (by simp; omega), List.getElem?_append_left (by simp; omega)]
      simp only [List.getElem?_map, List.getElem?_range hi8, Option.map_some, Option.getD_some]
      obtain ⟨s1, s2⟩ := s
      obtain ⟨r1, r2⟩ := r
      obtain ⟨m1, m2⟩ := m
      simp only at h1 h2 h3 h4
      obtain ⟨rfl, -⟩ := h1
      obtain ⟨rfl, -⟩ := h2
      obtain ⟨rfl, -⟩ := h3
      obtain ⟨rfl, -⟩ := h4
      by_cases hi0 : i = 0
      · simp [hi0, block_xor]
      · simp [hi0, block_xor, Half.rot]
    · rw [List.getElem?_append_right (by simp; omega), List.getElem?_append_right (by simp; omega), List.getElem?_append_right (by simp; omega)]
      simp only [List.length_map, List.length_range]
      have := i4 (i - 8) (by omega)
      simpa only [List.getD_eq_getElem?_getD] using this

/-- **C44** (mock). The mock generator gives an OLE of `m` blocks, for any value of the encrypted batch number. -/
theorem C44_mock (s : Half) (m : Nat) :
    (oleMockSend s m).1.length = m ∧ (oleMockSend s m).2.length = m ∧ (oleMockRecv s m).1.length = m ∧ (oleMockRecv s m).2.length = m ∧
    ValidOle (128 * m) ((oleMockSend s m).1.map Half.block) ((oleMockSend s m).2.map Half.block)
      ((oleMockRecv s m).1.map Half.block) ((oleMockRecv s m).2.map Half.block) := by
  obtain ⟨i1, i2, i3, i4⟩ := mockRounds_xor (m / 8) (0, s.2) (s.1, 0) s (0, 43254534) (4532453452, 0) (4532453452, 43254534)
    ⟨rfl, rfl⟩ ⟨rfl, rfl⟩ ⟨rfl, rfl⟩ ⟨rfl, rfl⟩
  refine ⟨by simp only [oleMockSend, List.length_append, List.length_map, List.length_range, i1]; omega, by simp only [oleMockSend, List.length_append, List.length_map, List.length_range, i3]; omega, by simp only [oleMockRecv, List.length_append, List.length_map, List.length_range, i2]; omega,
    by simp only [oleMockRecv, List.length_append, List.length_map, List.length_range, i3]; omega, fun p hp => ?_⟩
  have hq : p / 128 < m := by omega
  have hz : Half.block (0, 0) = 0 := by decide
  have hg : ∀ (l : List Half) (i : Nat), (l.map Half.block).getD i 0 = (l.getD i (0, 0)).block := by
    intro l i
    simp only [List.getD_eq_getElem?_getD, List.getElem?_map]
    cases l[i]?
    · exact hz.symm
    · rfl
  have key : ((oleMockSend s m).1.getD (p / 128) (0, 0)).block ^^^ ((oleMockRecv s m).1.getD (p / 128) (0, 0)).block =
      ((oleMockSend s m).2.getD (p / 128) (0, 0)).block := by
    simp only [oleMockSend, oleMockRecv, List.getD_eq_getElem?_getD]
    by_cases h8 : p / 128 < 8 * (m / 8)
    · rw [List.getElem?_append_left (by omega), List.getElem?_append_left (by omega), List.getElem?_append_left (by omega)]
      simpa only [List.getD_eq_getElem?_getD] using i4 (p / 128) h8
    · rw [List.getElem?_append_right (by omega), List.getElem?_append_right (by omega), List.getElem?_append_right (by omega), i1, i2, i3]
      simp only [List.getElem?_map, List.getElem?_range (show p / 128 - 8 * (m / 8) < m - m / 8 * 8 by omega), Option.map_some, Option.getD_some]
      simp [block_xor]
  have same : (oleMockRecv s m).2 = (oleMockSend s m).2 := rfl
  simp only [bitAt, hg, same]
  rw [← BitVec.getLsbD_xor, key, Bool.and_self]

/-- A raw correlation for the examples: every second choice bit is set. -/
def exB (n : Nat) : List Block := (List.range (128 * n)).map fun i => BitVec.ofNat 128 (4 * i)
def exA (delta : Block) (n : Nat) : List Block := (List.range (128 * n)).map fun i =>
  if i % 2 = 1 then ((BitVec.ofNat 128 (4 * i) &&& maskOne) ^^^ (delta &&& maskOne)) ||| 1 else BitVec.ofNat 128 (4 * i) &&& maskOne

theorem exRaw (delta : Block) (n : Nat) : RawOt delta (exA delta n) (exB n) ∧ (exA delta n).length = 128 * n ∧
    ∀ p, p < 128 * n → ((exA delta n).getD p 0).getLsbD 0 = decide (p % 2 = 1) := by
  have hl : ∀ p, p < 128 * n → ((exA delta n).getD p 0).getLsbD 0 = decide (p % 2 = 1) := by
    intro p hp
    rw [exA, getD_range_map _ _ _ _ hp]
    by_cases h : p % 2 = 1
    · rw [if_pos h]; simp [h]
    · rw [if_neg h, BitVec.getLsbD_and, maskOne_bit (by omega)]; simp [h]
  refine ⟨⟨by simp [exA, exB], fun p hp => ?_⟩, by simp [exA], hl⟩
  have hp' : p < 128 * n := by simpa [exA] using hp
  rw [hl p hp', exA, exB, getD_range_map _ _ _ _ hp', getD_range_map _ _ _ _ hp']
  apply BitVec.eq_of_getLsbD_eq
  intro i hi
  by_cases h : p % 2 = 1
  · simp only [h, if_true, decide_true, BitVec.getLsbD_and, BitVec.getLsbD_xor, BitVec.getLsbD_or, maskOne_bit hi]
    by_cases h0 : i = 0
    · simp [h0]
    · simp [h0, BitVec.getLsbD_one]
  · simp [h, BitVec.and_assoc]

example (H : Block → Block) (delta : Block) : ∃ sa sm ra rm, oleSend gather H delta (exB 2) 2 2 = .ok (sa, sm) ∧
    oleRecv gather H (exA delta 2) 2 2 = .ok (ra, rm) ∧ ValidOle 256 sa sm ra rm ∧ bitAt rm 201 = true ∧ bitAt rm 200 = false := by
  obtain ⟨h, hl, hb⟩ := exRaw delta 2
  obtain ⟨sa, sm, ra, rm, h1, h2, -, -, -, -, h3, h4, -⟩ := C44_compress H delta (by omega) hl h
  refine ⟨sa, sm, ra, rm, h1, h2, h3, ?_, ?_⟩
  · rw [h4 201 (by omega), hb 201 (by omega)]; rfl
  · rw [h4 200 (by omega), hb 200 (by omega)]; rfl

end Cor
end SecJoin
