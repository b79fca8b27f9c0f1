import Verif.Sort.Radix
import Verif.GMW.CircuitLemmas
import Verif.Util.Lemmas
import Verif.Sort.PlainLemmas
import Verif.PermCor.Composed
import Mathlib.Data.BitVec
import Mathlib.Tactic.Ring
/-!
# Lemmas for the secure radix sort
-/
namespace SecJoin
namespace Radix

/-! ## Flat storage -/

theorem flatten_len {α : Type} {x : List (List α)} {c : Nat} (h : ∀ r ∈ x, r.length = c) : x.flatten.length = x.length * c := by
  induction x with
  | nil => simp
  | cons a x ih =>
    rw [List.flatten_cons, List.length_append, ih (fun r hr => h r (by simp [hr])), h a (by simp), List.length_cons,
      Nat.add_mul]
    omega

theorem flatten_get {α : Type} {x : List (List α)} {c : Nat} (h : ∀ r ∈ x, r.length = c) (i : Nat) {j : Nat} (hj : j < c) :
    x.flatten[i * c + j]? = x[i]?.bind (·[j]?) := by
  induction x generalizing i with
  | nil => simp
  | cons a x ih =>
    have ha := h a (by simp)
    rw [List.flatten_cons]
    cases i with
    | zero => rw [List.getElem?_append_left (by omega)]; simp
    | succ i =>
      rw [List.getElem?_append_right (by rw [ha, Nat.add_mul]; omega), ha,
        show (i + 1) * c + j - c = i * c + j by rw [Nat.add_mul]; omega, ih (fun r hr => h r (by simp [hr]))]
      simp

/-! ## extract -/

theorem load16_ok {m : List Byte} {a : Nat} (h : a + 1 < m.length) :
    load16 m a = .ok (m.getD (a + 1) 0 ++ m.getD a 0) := by
  simp only [load16]
  rw [rd_ok (by omega : a < m.length), ok_bind, rd_ok h, ok_bind]
  simp [List.getD_eq_getElem?_getD, List.getElem?_eq_getElem h, List.getElem?_eq_getElem (by omega : a < m.length)]

theorem loadLast_ok {m : List Byte} {a : Nat} (h : a < m.length) :
    loadLast m a = .ok (m.getD (a + 1) 0 ++ m.getD a 0) := by
  unfold loadLast
  rw [if_neg (by omega), if_neg (by omega)]
  by_cases h1 : m.length = a + 1
  · rw [if_pos h1, rd_ok h, ok_bind]
    have e : m.getD (a + 1) 0 = 0 := by simp [List.getD_eq_getElem?_getD, h1]
    rw [e, List.getD_eq_getElem?_getD, List.getElem?_eq_getElem h]
    simp only [Option.getD_some, Except.ok.injEq]
    generalize m[a] = b
    apply BitVec.eq_of_getLsbD_eq
    intro k hk
    rw [BitVec.getLsbD_append, BitVec.getLsbD_setWidth]
    by_cases hk8 : k < 8
    · simp [hk8]; omega
    · simp [hk8]
      intro _
      exact BitVec.getLsbD_of_ge b k (by omega)
  · rw [if_neg h1]
    exact load16_ok (by omega)

theorem digitOf_bit {shift size : Nat} {x : BitVec 16} (h0 : 0 < size) (h8 : size ≤ 8) {j : Nat} (hj : j < 8) :
    (digitOf shift size x).getLsbD j = (decide (j < size) && x.getLsbD (shift + j)) := by
  unfold digitOf
  rw [if_pos (by omega)]
  simp only [BitVec.getLsbD_setWidth, BitVec.getLsbD_and, BitVec.getLsbD_ushiftRight]
  have hm : ((1#64 <<< size) - 1).getLsbD j = decide (j < size) := by
    have : ∀ s : Fin 9, ∀ j : Fin 8, ((1#64 <<< s.val) - 1).getLsbD j = decide (j.val < s.val) := by decide
    exact this ⟨size, by omega⟩ ⟨j, hj⟩
  rw [hm]
  by_cases h : shift + j < 16
  · simp [hj, show shift + j < 64 by omega, Bool.and_comm]
  · simp [hj, BitVec.getLsbD_of_ge x (shift + j) (by omega)]

theorem extractLoop_ok (m : List Byte) (step shift size bi : Nat) (hb : bi < step) :
    ∀ (k i : Nat), m.length = (i + k + 1) * step →
    extractLoop m step shift size k (i * step + bi) = .ok ((List.range' i (k + 1)).map fun i =>
      digitOf shift size (m.getD (i * step + bi + 1) 0 ++ m.getD (i * step + bi) 0)) := by
  intro k
  induction k with
  | zero =>
    intro i hm
    rw [extractLoop, loadLast_ok (by rw [hm, Nat.add_zero, Nat.add_mul]; omega), ok_bind]
    simp [List.range'_succ]
  | succ k ih =>
    intro i hm
    have h1 : i * step + bi + 1 < m.length := by
      rw [hm, show i + (k + 1) + 1 = i + 1 + (k + 1) by omega, Nat.add_mul, Nat.add_mul, Nat.add_mul]
      have : step * 1 ≤ step * (k + 1) := Nat.mul_le_mul_left _ (by omega)
      omega
    rw [extractLoop, load16_ok h1, ok_bind, show i * step + bi + step = (i + 1) * step + bi by rw [Nat.add_mul]; omega,
      ih (i + 1) (by rw [hm]; congr 1; omega), ok_bind, List.range'_succ (n := k + 1)]
    simp

/-- The digit bytes of all rows. -/
def digits (begin size : Nat) (k : Mat Row) : List Byte :=
  (List.range k.rows.length).map fun i => digitOf (begin % 8) (min size (k.cols * 8 - begin))
    (k.rows.flatten.getD (i * k.cols + begin / 8 + 1) 0 ++ k.rows.flatten.getD (i * k.cols + begin / 8) 0)

theorem extract_ok {n begin size : Nat} {k : Mat Row} (hk : Shape n k.cols k.rows) (hn : 0 < n)
    (hb : begin < 8 * k.cols) (h0 : 0 < size) (h8 : size ≤ 8) : extract begin size k = .ok (digits begin size k) := by
  unfold extract
  rw [decide_eq_false (by omega), throwIf_false, ok_bind]
  simp only [if_pos (show begin ≤ k.cols * 8 by omega)]
  rw [if_neg (by rw [hk.1]; omega)]
  have := extractLoop_ok k.rows.flatten k.cols (begin % 8) (min size (k.cols * 8 - begin)) (begin / 8) (by omega)
    (k.rows.length - 1) 0 (by rw [flatten_len hk.2, hk.1]; congr 1; omega)
  rw [Nat.zero_mul, Nat.zero_add] at this
  rw [this, digits, List.range_eq_range', show k.rows.length - 1 + 1 = k.rows.length by rw [hk.1]; omega]

theorem flat_getD {n c : Nat} {x : List Row} (h : Shape n c x) {i j : Nat} (hi : i < n) (hj : j < c) :
    x.flatten.getD (i * c + j) 0 = byteAt x i j := by
  rw [List.getD_eq_getElem?_getD, flatten_get h.2 i hj, List.getElem?_eq_getElem (by rw [h.1]; exact hi)]
  simp [byteAt, List.getD_eq_getElem?_getD, List.getElem?_eq_getElem (show i < x.length by rw [h.1]; exact hi)]

theorem digits_bit {n begin size : Nat} {k : Mat Row} (hk : Shape n k.cols k.rows)
    (hb : begin < 8 * k.cols) (h0 : 0 < size) (h8 : size ≤ 8) {i : Nat} (hi : i < n) {j : Nat} (hj : j < 8) :
    ((digits begin size k).getD i 0).getLsbD j = (decide (j < size) && bitOf (k.rows.getD i []) (begin + j)) := by
  have hil : i < k.rows.length := by rw [hk.1]; exact hi
  have e : (digits begin size k).getD i 0 = digitOf (begin % 8) (min size (k.cols * 8 - begin))
      (k.rows.flatten.getD (i * k.cols + begin / 8 + 1) 0 ++ k.rows.flatten.getD (i * k.cols + begin / 8) 0) := by
    simp [digits, List.getD_eq_getElem?_getD, hil]
  rw [e, digitOf_bit (by omega) (by omega) hj]
  have hrow : (k.rows.getD i []).length = k.cols := by
    rw [List.getD_eq_getElem?_getD, List.getElem?_eq_getElem hil]; exact hk.2 _ (List.getElem_mem hil)
  by_cases h1 : j < size
  · by_cases h2 : begin + j < 8 * k.cols
    · rw [decide_eq_true (by omega : j < min size (k.cols * 8 - begin)), decide_eq_true h1, Bool.true_and, Bool.true_and,
        BitVec.getLsbD_append, flat_getD hk hi (by omega)]
      by_cases h3 : begin % 8 + j < 8
      · rw [if_pos h3, bitOf, show (begin + j) / 8 = begin / 8 by omega, show (begin + j) % 8 = begin % 8 + j by omega]
        rfl
      · rw [if_neg h3, bitOf, show (begin + j) / 8 = begin / 8 + 1 by omega,
          show (begin + j) % 8 = begin % 8 + j - 8 by omega, Nat.add_assoc, flat_getD hk hi (by omega)]
        rfl
    · rw [bitOf_ge (by rw [hrow]; omega), decide_eq_false (by omega)]; simp
  · rw [decide_eq_false (by omega : ¬ j < min size (k.cols * 8 - begin)), decide_eq_false h1]; rfl

theorem digits_length (begin size : Nat) (k : Mat Row) : (digits begin size k).length = k.rows.length := by
  simp [digits]

/-! ## Bit injection -/

theorem setWidth_mask {w : Nat} (a : BitVec 32) (m : BitVec 32) (hm : ∀ j, j < w → m.getLsbD j = true) :
    (a &&& m).setWidth w = a.setWidth w := by
  apply BitVec.eq_of_getLsbD_eq
  intro j hj
  simp [hj, hm j hj]

theorem inj_sum {w : Nat} (hw : w ≤ 32) (m : BitVec 32) (hm : ∀ j, j < w → m.getLsbD j = true) (o : Ot) (x y : Bool) :
    (injSend m o y (x ^^ o.c)).1.setWidth w + (injRecv m o x (injSend m o y (x ^^ o.c)).2).setWidth w =
      (word (x ^^ y)).setWidth w := by
  have h : (-(o.msg (x ^^ o.c)) + word y) +
      (if x then o.got + (o.msg (x ^^ o.c) + (-2 * word y + 1) - o.msg (!(x ^^ o.c))) else o.got) = word (x ^^ y) := by
    cases x
    · simp only [Ot.got, Bool.false_bne, if_false, Bool.false_eq_true]; ring
    · have : (!(true ^^ o.c)) = o.c := by simp
      rw [this, if_pos rfl, Ot.got]
      have : word (true ^^ y) = 1 - word y := by cases y <;> rfl
      rw [this]
      ring
  rw [← h, injSend, injRecv]
  dsimp only
  split <;> simp only [setWidth_mask _ m hm, BitVec.setWidth_add _ _ hw]

theorem unpackLoop_ok (v : List (BitVec 32)) : ∀ pre : List Byte,
    unpackLoop 4 (pre ++ v.flatMap u32Bytes) v.length pre.length = .ok v := by
  induction v with
  | nil => intro pre; rfl
  | cons a v ih =>
    intro pre
    have hl : (u32Bytes a).length = 4 := rfl
    rw [List.length_cons, unpackLoop, if_pos (by simp [hl])]
    have e : ((pre ++ (a :: v).flatMap u32Bytes).drop pre.length).take 4 = u32Bytes a := by
      rw [List.drop_left, List.flatMap_cons, List.take_left' hl]
    have := ih (pre ++ u32Bytes a)
    rw [List.length_append, hl, List.append_assoc] at this
    rw [e, bytesU32_u32Bytes, ok_bind, List.flatMap_cons, this]
    rfl

theorem flatMap_bytes_length (v : List (BitVec 32)) : (v.flatMap u32Bytes).length = v.length * 4 := by
  induction v with
  | nil => rfl
  | cons a v ih => rw [List.flatMap_cons, List.length_append, ih, List.length_cons]; simp [u32Bytes]; omega

theorem unpack_pack {outBits : Nat} (h : outBits = 32 ∨ (25 ≤ outBits ∧ outBits ≤ 32)) (v : List (BitVec 32)) :
    unpack outBits (pack outBits v) v.length = .ok v := by
  have hd : outBits ≠ 32 → divCeil outBits 8 = 4 := by unfold divCeil; omega
  have hp : pack outBits v = v.flatMap u32Bytes := by
    unfold pack
    by_cases h32 : outBits = 32
    · rw [if_pos h32]
    · rw [if_neg h32, hd h32]; rfl
  have hn : (if outBits = 32 then 4 else divCeil outBits 8) = 4 := by
    by_cases h32 : outBits = 32
    · rw [if_pos h32]
    · rw [if_neg h32, hd h32]
  unfold unpack
  simp only [hn, hp, flatMap_bytes_length]
  rw [if_neg (by simp)]
  exact unpackLoop_ok v []

theorem inBit_ok {m : List Row} {w i n c : Nat} (hm : Shape n c m) (hw : w ≤ 8 * c) (hi : i < n * w) :
    inBit m w i = .ok (bitOf (m.getD (i / w) []) (i % w)) := by
  have hw0 : 0 < w := by
    rcases Nat.eq_zero_or_pos w with h | h
    · subst h; simp at hi
    · exact h
  have h1 : i / w < m.length := by rw [hm.1]; exact Nat.div_lt_of_lt_mul (by rw [Nat.mul_comm]; exact hi)
  have h2 := Nat.mod_lt i hw0
  have h3 : m[i / w].length = c := hm.2 _ (List.getElem_mem h1)
  unfold inBit
  rw [rd_ok h1, ok_bind, rd_ok (by omega : i % w / 8 < m[i / w].length), ok_bind]
  simp [bitOf, List.getD_eq_getElem?_getD, List.getElem?_eq_getElem h1,
    List.getElem?_eq_getElem (show i % w / 8 < m[i / w].length by omega)]

theorem injBatch_ok {outBits : Nat} {mask : BitVec 32} {in0 in1 : List Row} {w : Nat} {ots : List Ot} {i : Nat}
    {b0 b1 : Nat → Bool}
    (ho : outBits = 32 ∨ (25 ≤ outBits ∧ outBits ≤ 32))
    (h0 : ∀ j, i ≤ j → j < i + ots.length → inBit in0 w j = .ok (b0 j))
    (h1 : ∀ j, i ≤ j → j < i + ots.length → inBit in1 w j = .ok (b1 j)) :
    injBatch outBits mask in0 in1 w ots i = .ok
      (ots.mapIdx (fun j o => (injSend mask o (b0 (i + j)) (b1 (i + j) ^^ o.c)).1),
       ots.mapIdx (fun j o => injRecv mask o (b1 (i + j)) (injSend mask o (b0 (i + j)) (b1 (i + j) ^^ o.c)).2)) := by
  unfold injBatch
  rw [mapRes_ok (g := b1) (by intro j hj; rw [List.mem_range'_1] at hj; exact h1 j hj.1 hj.2), ok_bind,
    mapRes_ok (g := b0) (by intro j hj; rw [List.mem_range'_1] at hj; exact h0 j hj.1 hj.2), ok_bind]
  have es : List.zipWith (fun (o : Ot) (p : Bool × Bool) => injSend mask o p.1 p.2) ots
      (((List.range' i ots.length).map b0).zip
        (List.zipWith (fun x (o : Ot) => x ^^ o.c) ((List.range' i ots.length).map b1) ots)) =
      ots.mapIdx (fun j o => injSend mask o (b0 (i + j)) (b1 (i + j) ^^ o.c)) := by
    apply List.ext_getElem?
    intro j
    by_cases h : j < ots.length
    · simp [List.getElem?_zipWith, h, List.zip]
    · simp [List.getElem?_zipWith, h]
  simp only [es]
  have hl : ((ots.mapIdx (fun j o => injSend mask o (b0 (i + j)) (b1 (i + j) ^^ o.c))).map Prod.snd).length =
      ots.length := by simp
  have hu := unpack_pack ho ((ots.mapIdx (fun j o => injSend mask o (b0 (i + j)) (b1 (i + j) ^^ o.c))).map Prod.snd)
  rw [hl] at hu
  rw [hu, ok_bind]
  simp only [Except.ok.injEq, Prod.mk.injEq]
  constructor
  · apply List.ext_getElem?
    intro j
    simp [Function.comp_def]
  · apply List.ext_getElem?
    intro j
    by_cases h : j < ots.length
    · simp [List.getElem?_zipWith, h, List.zip]
    · simp [List.getElem?_zipWith, h]

theorem injLoop_ok {outBits : Nat} {mask : BitVec 32} {in0 in1 : List Row} {w total v : Nat} {b0 b1 : Nat → Bool}
    (ho : outBits = 32 ∨ (25 ≤ outBits ∧ outBits ≤ 32))
    (hv : v ≤ 32) (hm : ∀ j, j < v → mask.getLsbD j = true)
    (h0 : ∀ j, j < total → inBit in0 w j = .ok (b0 j)) (h1 : ∀ j, j < total → inBit in1 w j = .ok (b1 j)) :
    ∀ (bs : List (List Ot)) (i : Nat), total ≤ i + (bs.map List.length).sum →
    ∃ r0 r1, injLoop outBits mask in0 in1 w total bs i = .ok (r0, r1) ∧ r0.length = total - i ∧ r1.length = total - i ∧
      ∀ j, i + j < total → (r0.getD j 0).setWidth v + (r1.getD j 0).setWidth v = (word (b0 (i + j) ^^ b1 (i + j))).setWidth v := by
  intro bs
  induction bs with
  | nil =>
    intro i h
    simp only [List.map_nil, List.sum_nil, Nat.add_zero] at h
    exact ⟨[], [], by rw [injLoop, if_pos h], by simp; omega, by simp; omega, fun j hj => by omega⟩
  | cons b bs ih =>
    intro i h
    rw [List.map_cons, List.sum_cons] at h
    by_cases hi : total ≤ i
    · exact ⟨[], [], by rw [injLoop, if_pos hi], by simp; omega, by simp; omega, fun j hj => by omega⟩
    · generalize hots : b.take (min b.length (total - i)) = ots
      have hlen : ots.length = min b.length (total - i) := by rw [← hots, List.length_take]; omega
      obtain ⟨r0, r1, e, l0, l1, hs⟩ := ih (i + ots.length) (by omega)
      have hb := injBatch_ok (outBits := outBits) (mask := mask) (in0 := in0) (in1 := in1) (w := w) (ots := ots) (i := i)
        (b0 := b0) (b1 := b1) ho (fun j _ hj => h0 j (by omega)) (fun j _ hj => h1 j (by omega))
      refine ⟨ots.mapIdx (fun j o => (injSend mask o (b0 (i + j)) (b1 (i + j) ^^ o.c)).1) ++ r0,
        ots.mapIdx (fun j o => injRecv mask o (b1 (i + j)) (injSend mask o (b0 (i + j)) (b1 (i + j) ^^ o.c)).2) ++ r1,
        ?_, ?_, ?_, ?_⟩
      · rw [injLoop, if_neg hi]
        dsimp only
        rw [hots, hb, ok_bind]
        dsimp only
        rw [e]; rfl
      · simp [l0]; omega
      · simp [l1]; omega
      · intro j hj
        by_cases hjl : j < ots.length
        · have := inj_sum hv mask hm ots[j] (b1 (i + j)) (b0 (i + j))
          simp only [List.getD_eq_getElem?_getD]
          rw [List.getElem?_append_left (by simpa using hjl), List.getElem?_append_left (by simpa using hjl)]
          simp only [List.getElem?_mapIdx, List.getElem?_eq_getElem hjl, Option.map_some, Option.getD_some]
          rw [this, Bool.xor_comm]
        · have := hs (j - ots.length) (by omega)
          simp only [List.getD_eq_getElem?_getD] at this ⊢
          rw [List.getElem?_append_right (by simp; omega), List.getElem?_append_right (by simp; omega)]
          simp only [List.length_mapIdx]
          rw [this, show i + ots.length + (j - ots.length) = i + j by omega]

/-! ## One-hot digits -/

theorem nodeWire_inj {L s t : Nat} (hs : s < 2 ^ (L + 1) - 1) (ht : t < 2 ^ (L + 1) - 1)
    (h : nodeWire L s = nodeWire L t) : s = t := by
  have h2 : 2 ^ (L + 1) = 2 * 2 ^ L := by rw [Nat.pow_succ]; omega
  have := Nat.two_pow_pos L
  unfold nodeWire at h
  split at h <;> split at h <;> omega

theorem nodeWire_ge (L t : Nat) : L ≤ nodeWire L t := by
  unfold nodeWire; split <;> omega

theorem log2_double {m d : Nat} (h : Nat.log2 m = d) (hm : 0 < m) :
    Nat.log2 (2 * m) = d + 1 ∧ Nat.log2 (2 * m + 1) = d + 1 := by
  have h1 := (Nat.log2_eq_iff (n := m) (k := d) (by omega)).mp h
  have e : 2 ^ (d + 1) = 2 * 2 ^ d := by rw [Nat.pow_succ]; omega
  have e2 : 2 ^ (d + 1 + 1) = 2 * 2 ^ (d + 1) := by rw [Nat.pow_succ]; omega
  constructor
  · rw [Nat.log2_eq_iff (by omega)]; omega
  · rw [Nat.log2_eq_iff (by omega)]; omega

theorem halves (L v k : Nat) (hk : k < L) :
    (2 ^ L + v) / 2 ^ (k + 1) = (2 ^ L + v) / 2 ^ k / 2 ∧
    v.testBit k = decide ((2 ^ L + v) / 2 ^ k % 2 = 1) := by
  constructor
  · rw [Nat.div_div_eq_div_mul, Nat.pow_succ]
  · rw [Nat.testBit_eq_decide_div_mod_eq]
    have e : 2 ^ L = 2 ^ k * (2 * 2 ^ (L - k - 1)) := by
      rw [← Nat.pow_succ', ← Nat.pow_add]; congr 1; omega
    rw [e, Nat.mul_add_div (Nat.two_pow_pos k)]
    congr 2
    omega

def oneHotPre (L m : Nat) : List Gmw.Op :=
  (List.range m).flatMap fun i =>
    [.gate ⟨nodeWire L i, L - 1 - Nat.log2 (i + 1), nodeWire L ((i + 1) * 2), .and⟩,
     .gate ⟨nodeWire L i, nodeWire L ((i + 1) * 2), nodeWire L ((i + 1) * 2 - 1), .xor⟩]

theorem oneHot_inv {L v : Nat} (hv : v < 2 ^ L) {x : Nat → Bool} (hx : ∀ t, t < L → x t = v.testBit t) :
    ∀ m, m ≤ 2 ^ L - 1 →
    (∀ w, w < L → Gmw.evalOps (oneHotPre L m) (fun w => if w = nodeWire L 0 then true else x w) w = v.testBit w) ∧
    (∀ t, t ≤ 2 * m → Gmw.evalOps (oneHotPre L m) (fun w => if w = nodeWire L 0 then true else x w) (nodeWire L t) =
      decide ((2 ^ L + v) / 2 ^ (L - Nat.log2 (t + 1)) = t + 1)) := by
  intro m
  induction m with
  | zero =>
    intro _
    refine ⟨fun w hw => ?_, fun t ht => ?_⟩
    · simp only [oneHotPre, List.range_zero, List.flatMap_nil, Gmw.evalOps]
      rw [if_neg (by have := nodeWire_ge L 0; omega), hx w hw]
    · obtain rfl : t = 0 := by omega
      simp only [oneHotPre, List.range_zero, List.flatMap_nil, Gmw.evalOps]
      rw [if_pos trivial, show (0 : Nat) + 1 = 1 by rfl, show Nat.log2 1 = 0 by decide, Nat.sub_zero]
      symm
      rw [decide_eq_true_iff, Nat.div_eq_iff (Nat.two_pow_pos L)]
      omega
  | succ m ih =>
    intro hm
    obtain ⟨ih1, ih2⟩ := ih (by omega)
    have hpow : 2 ^ (L + 1) = 2 * 2 ^ L := by rw [Nat.pow_succ]; omega
    generalize hst : Gmw.evalOps (oneHotPre L m) (fun w => if w = nodeWire L 0 then true else x w) = st at ih1 ih2
    have hev : Gmw.evalOps (oneHotPre L (m + 1)) (fun w => if w = nodeWire L 0 then true else x w) =
        Gmw.evalGate ⟨nodeWire L m, nodeWire L ((m + 1) * 2), nodeWire L ((m + 1) * 2 - 1), .xor⟩
          (Gmw.evalGate ⟨nodeWire L m, L - 1 - Nat.log2 (m + 1), nodeWire L ((m + 1) * 2), .and⟩ st) := by
      have : oneHotPre L (m + 1) = oneHotPre L m ++
          [.gate ⟨nodeWire L m, L - 1 - Nat.log2 (m + 1), nodeWire L ((m + 1) * 2), .and⟩,
           .gate ⟨nodeWire L m, nodeWire L ((m + 1) * 2), nodeWire L ((m + 1) * 2 - 1), .xor⟩] := by
        simp [oneHotPre, List.range_succ]
      rw [this, Gmw.evalOps_append, hst]
      rfl
    rw [hev]
    have hd : Nat.log2 (m + 1) < L := by
      rw [Nat.log2_lt (by omega)]; omega
    generalize hdd : Nat.log2 (m + 1) = d at hd
    have hne1 : nodeWire L m ≠ nodeWire L ((m + 1) * 2) := by
      intro h; have := nodeWire_inj (by omega) (by omega) h; omega
    have hne2 : nodeWire L ((m + 1) * 2) ≠ nodeWire L ((m + 1) * 2 - 1) := by
      intro h; have := nodeWire_inj (by omega) (by omega) h; omega
    have hlog := log2_double hdd (by omega)
    have hp := ih2 m (by omega)
    rw [hdd] at hp
    have hc := ih1 (L - 1 - d) (by omega)
    obtain ⟨hh1, hh2⟩ := halves L v (L - 1 - d) (by omega)
    rw [show L - 1 - d + 1 = L - d by omega] at hh1
    rw [hh2] at hc
    rw [hh1] at hp
    generalize hA : (2 ^ L + v) / 2 ^ (L - 1 - d) = A at hc hp
    refine ⟨fun w hw => ?_, fun t ht => ?_⟩
    · simp only [Gmw.evalGate]
      rw [if_neg (by have := nodeWire_ge L ((m + 1) * 2 - 1); omega),
        if_neg (by have := nodeWire_ge L ((m + 1) * 2); omega)]
      exact ih1 w hw
    · simp only [Gmw.evalGate]
      by_cases h1 : t = (m + 1) * 2 - 1
      · rw [h1, if_pos rfl, if_neg hne1, if_pos trivial, hp, hc]
        rw [show (m + 1) * 2 - 1 + 1 = 2 * (m + 1) by omega, hlog.1, show L - (d + 1) = L - 1 - d by omega, hA]
        simp only [Gmw.table]
        by_cases h2 : A / 2 = m + 1 <;> by_cases h3 : A % 2 = 1 <;> by_cases h4 : A = 2 * (m + 1) <;>
          simp [h2, h3, h4] <;> omega
      · by_cases h2 : t = (m + 1) * 2
        · rw [h2, if_neg hne2, if_pos rfl, hp, hc]
          rw [show (m + 1) * 2 + 1 = 2 * (m + 1) + 1 by omega, hlog.2, show L - (d + 1) = L - 1 - d by omega, hA]
          simp only [Gmw.table]
          by_cases h2 : A / 2 = m + 1 <;> by_cases h3 : A % 2 = 1 <;> by_cases h4 : A = 2 * (m + 1) + 1 <;>
            simp [h2, h3, h4] <;> omega
        · rw [if_neg (fun h => h1 (nodeWire_inj (by omega) (by omega) h)),
            if_neg (fun h => h2 (nodeWire_inj (by omega) (by omega) h))]
          exact ih2 t (by omega)

theorem oneHot_ok {L v : Nat} (hv : v < 2 ^ L) {x : Nat → Bool} (hx : ∀ t, t < L → x t = v.testBit t)
    {j : Nat} (hj : j < 2 ^ L) : oneHot L x j = decide (v = j) := by
  have h := (oneHot_inv hv hx (2 ^ L - 1) (Nat.le_refl _)).2 (2 ^ L - 1 + j) (by omega)
  have hw : nodeWire L (2 ^ L - 1 + j) = L + j := by
    unfold nodeWire; rw [if_neg (by omega)]; omega
  have hl : Nat.log2 (2 ^ L - 1 + j + 1) = L := by
    rw [Nat.log2_eq_iff (by omega), Nat.pow_succ]; omega
  rw [hw, hl, Nat.sub_self, Nat.pow_zero, Nat.div_one] at h
  unfold oneHot
  rw [show oneHotOps L = oneHotPre L (2 ^ L - 1) by rfl, h]
  congr 1
  rw [eq_iff_iff]
  omega

theorem pack4_byte (a b c d : Byte) {k : Nat} (hk : k < 8) :
    (((a &&& 3) ||| ((b &&& 3) <<< 2) ||| ((c &&& 3) <<< 4) ||| ((d &&& 3) <<< 6) : Byte)).getLsbD k =
      ([a, b, c, d].getD (k / 2) 0).getLsbD (k % 2) := by
  have h : k = 0 ∨ k = 1 ∨ k = 2 ∨ k = 3 ∨ k = 4 ∨ k = 5 ∨ k = 6 ∨ k = 7 := by omega
  rcases h with h | h | h | h | h | h | h | h <;> subst h <;> simp

theorem pack2_byte (a b : Byte) {k : Nat} (hk : k < 8) :
    (((a &&& 15) ||| ((b &&& 15) <<< 4) : Byte)).getLsbD k = ([a, b].getD (k / 4) 0).getLsbD (k % 4) := by
  have h : k = 0 ∨ k = 1 ∨ k = 2 ∨ k = 3 ∨ k = 4 ∨ k = 5 ∨ k = 6 ∨ k = 7 := by omega
  rcases h with h | h | h | h | h | h | h | h <;> subst h <;> simp

theorem bitOf_cons (a : Byte) (r : Row) (k : Nat) :
    bitOf (a :: r) k = if k < 8 then a.getLsbD k else bitOf r (k - 8) := by
  unfold bitOf
  split
  · rename_i h; rw [Nat.div_eq_of_lt h, Nat.mod_eq_of_lt h]; rfl
  · rename_i h
    rw [show k / 8 = (k - 8) / 8 + 1 by omega, show k % 8 = (k - 8) % 8 by omega]; rfl

theorem pack4_spec (v : List Byte) : (pack4 v).length = divCeil (v.length * 2) 8 ∧
    ∀ i j, i < v.length → j < 2 → bitOf (pack4 v) (i * 2 + j) = (v.getD i 0).getLsbD j := by
  have last : ∀ (v : List Byte) (x : Byte), v.length ≤ 3 → v ≠ [] →
      x = ((v.getD 0 0 &&& 3) ||| ((v.getD 1 0 &&& 3) <<< 2) ||| ((v.getD 2 0 &&& 3) <<< 4) ||| (((0 : Byte) &&& 3) <<< 6) : Byte) →
      [x].length = divCeil (v.length * 2) 8 ∧
      ∀ i j, i < v.length → j < 2 → bitOf [x] (i * 2 + j) = (v.getD i 0).getLsbD j := by
    intro v x hv hne hx
    have : 0 < v.length := List.length_pos_iff.mpr hne
    refine ⟨by simp only [List.length_singleton, divCeil]; omega, ?_⟩
    intro i j hi hj
    rw [bitOf_cons, if_pos (by omega), hx, pack4_byte _ _ _ _ (by omega), show (i * 2 + j) / 2 = i by omega,
      show (i * 2 + j) % 2 = j by omega]
    have h : i = 0 ∨ i = 1 ∨ i = 2 := by omega
    rcases h with h | h | h <;> subst h <;> rfl
  fun_induction pack4 v with
  | case1 a b c d r ih =>
    refine ⟨by simp only [List.length_cons, ih.1, divCeil]; omega, ?_⟩
    intro i j hi hj
    rw [bitOf_cons]
    by_cases h : i < 4
    · rw [if_pos (by omega), pack4_byte _ _ _ _ (by omega), show (i * 2 + j) / 2 = i by omega,
        show (i * 2 + j) % 2 = j by omega]
      have h : i = 0 ∨ i = 1 ∨ i = 2 ∨ i = 3 := by omega
      rcases h with h | h | h | h <;> subst h <;> rfl
    · have := ih.2 (i - 4) j (by simp only [List.length_cons] at hi; omega) hj
      rw [if_neg (by omega), show i * 2 + j - 8 = (i - 4) * 2 + j by omega, this]
      obtain ⟨i, rfl⟩ : ∃ i', i = i' + 4 := ⟨i - 4, by omega⟩
      rfl
  | case2 => exact ⟨rfl, fun i j hi => by simp at hi⟩
  | case3 a => exact last [a] _ (by simp) (by simp) (by simp)
  | case4 a b => exact last [a, b] _ (by simp) (by simp) (by simp [BitVec.or_comm])
  | case5 a b c =>
    refine last [a, b, c] _ (by simp) (by simp) ?_
    simp only [List.getD_cons_zero, List.getD_cons_succ]
    rw [BitVec.or_comm ((b &&& 3) <<< 2), BitVec.or_comm ((c &&& 3) <<< 4)]
    simp

theorem pack2_spec (v : List Byte) : (pack2 v).length = divCeil (v.length * 4) 8 ∧
    ∀ i j, i < v.length → j < 4 → bitOf (pack2 v) (i * 4 + j) = (v.getD i 0).getLsbD j := by
  fun_induction pack2 v with
  | case1 a b r ih =>
    refine ⟨by simp only [List.length_cons, ih.1, divCeil]; omega, ?_⟩
    intro i j hi hj
    rw [bitOf_cons]
    by_cases h : i < 2
    · rw [if_pos (by omega), pack2_byte _ _ (by omega), show (i * 4 + j) / 4 = i by omega,
        show (i * 4 + j) % 4 = j by omega]
      have h : i = 0 ∨ i = 1 := by omega
      rcases h with h | h <;> subst h <;> rfl
    · have := ih.2 (i - 2) j (by simp only [List.length_cons] at hi; omega) hj
      rw [if_neg (by omega), show i * 4 + j - 8 = (i - 2) * 4 + j by omega, this]
      obtain ⟨i, rfl⟩ : ∃ i', i = i' + 2 := ⟨i - 2, by omega⟩
      rfl
  | case2 a =>
    refine ⟨by simp [divCeil], ?_⟩
    intro i j hi hj
    simp only [List.length_singleton] at hi
    obtain rfl : i = 0 := by omega
    rw [bitOf_cons, if_pos (by omega)]
    have := pack2_byte a 0 (k := j) (by omega)
    rw [show ((a &&& 15) ||| (((0 : Byte) &&& 15) <<< 4) : Byte) = a &&& 15 by simp] at this
    rw [Nat.zero_mul, Nat.zero_add, this, show j / 4 = 0 by omega, show j % 4 = j by omega]
    rfl
  | case3 => exact ⟨rfl, fun i j hi => by simp at hi⟩

theorem bitRow_bit (n : Nat) (f : Nat → Bool) (k : Nat) : bitOf (bitRow n f) k = (decide (k < n) && f k) := by
  unfold bitOf bitRow
  by_cases h : k / 8 < divCeil n 8
  · rw [List.getD_eq_getElem?_getD, List.getElem?_map, List.getElem?_range h]
    have h8 : k % 8 < 8 := by omega
    simp only [Option.map_some, Option.getD_some, BitVec.getLsbD_setWidth, BitVec.getLsbD_ofBoolListLE, List.getD_eq_getElem?_getD]
    rw [List.getElem?_map, List.getElem?_range h8]
    simp only [Option.map_some, Option.getD_some, decide_eq_true h8, Bool.true_and]
    rw [show k / 8 * 8 + k % 8 = k by omega]
  · have : ¬ k < n := by unfold divCeil at h; omega
    rw [decide_eq_false this, List.getD_eq_getElem?_getD, List.getElem?_eq_none (by simpa using h)]
    simp

theorem bitRow_length (n : Nat) (f : Nat → Bool) : (bitRow n f).length = divCeil n 8 := by simp [bitRow]

theorem flatRows_spec {n L : Nat} (hL : 3 ≤ L) (g : Nat → Nat → Bool) :
    (((List.range n).map fun i => bitRow (2 ^ L) (g i)).flatten).length = divCeil (n * 2 ^ L) 8 ∧
    ∀ i j, i < n → j < 2 ^ L →
      bitOf (((List.range n).map fun i => bitRow (2 ^ L) (g i)).flatten) (i * 2 ^ L + j) = g i j := by
  obtain ⟨k, rfl⟩ : ∃ k, L = k + 3 := ⟨L - 3, by omega⟩
  have e : 2 ^ (k + 3) = 8 * 2 ^ k := by rw [Nat.pow_add]; omega
  have hc : divCeil (2 ^ (k + 3)) 8 = 2 ^ k := by unfold divCeil; omega
  have hr : ∀ r ∈ (List.range n).map (fun i => bitRow (2 ^ (k + 3)) (g i)), r.length = 2 ^ k := by
    intro r hr
    obtain ⟨i, -, rfl⟩ := List.mem_map.mp hr
    rw [bitRow_length, hc]
  constructor
  · rw [flatten_len hr, List.length_map, List.length_range]
    unfold divCeil
    rw [e, show n * (8 * 2 ^ k) = 8 * (n * 2 ^ k) by rw [Nat.mul_left_comm]]
    omega
  · intro i j hi hj
    have h1 : (i * 2 ^ (k + 3) + j) / 8 = i * 2 ^ k + j / 8 := by
      rw [e, show i * (8 * 2 ^ k) = 8 * (i * 2 ^ k) by rw [Nat.mul_left_comm]]; omega
    have h2 : (i * 2 ^ (k + 3) + j) % 8 = j % 8 := by
      rw [e, show i * (8 * 2 ^ k) = 8 * (i * 2 ^ k) by rw [Nat.mul_left_comm]]; omega
    have := bitRow_bit (2 ^ (k + 3)) (g i) j
    rw [decide_eq_true hj, Bool.true_and] at this
    rw [bitOf, h1, h2, List.getD_eq_getElem?_getD, flatten_get hr i (by omega), List.getElem?_map, List.getElem?_range hi]
    simp only [Option.map_some, Option.bind_some]
    rw [← List.getD_eq_getElem?_getD]
    exact this

theorem oneBit_xor (a b : Byte) {j : Nat} (hj : j < 2) :
    ((oneBitRow 0 a).getLsbD j ^^ (oneBitRow 1 b).getLsbD j) = decide ((a ^^^ b).toNat % 2 ^ 1 = j) := by
  have e : ∀ z : Byte, z.toNat % 2 ^ 1 = if z.getLsbD 0 then 1 else 0 := by
    intro z
    rw [BitVec.getLsbD, Nat.testBit_zero]
    have := Nat.mod_two_eq_zero_or_one z.toNat
    rcases this with h | h <;> simp [h]
  rw [e, BitVec.getLsbD_xor]
  have h : j = 0 ∨ j = 1 := by omega
  rcases h with rfl | rfl
  · simp only [oneBitRow, ne_eq, not_true_eq_false, if_false, Nat.one_ne_zero, not_false_eq_true, if_true]
    simp only [BitVec.getLsbD_or, BitVec.getLsbD_and, BitVec.getLsbD_shiftLeft, BitVec.getLsbD_not]
    cases a.getLsbD 0 <;> cases b.getLsbD 0 <;> simp
  · simp only [oneBitRow, ne_eq, not_true_eq_false, if_false, Nat.one_ne_zero, not_false_eq_true, if_true]
    simp only [BitVec.getLsbD_or, BitVec.getLsbD_and, BitVec.getLsbD_shiftLeft, BitVec.getLsbD_not]
    cases a.getLsbD 0 <;> cases b.getLsbD 0 <;> simp

theorem oneHotShares_ok {n L : Nat} (h1 : 1 ≤ L) (h8 : L ≤ 8) (oh : Nat → Nat → Bool) {k0 k1 : List Byte}
    (l0 : k0.length = n) (l1 : k1.length = n) :
    ∃ b0 b1, oneHotShares L oh k0 k1 = (b0, b1) ∧ b0.length = divCeil (n * 2 ^ L) 8 ∧ b1.length = divCeil (n * 2 ^ L) 8 ∧
      ∀ i j, i < n → j < 2 ^ L → (bitOf b0 (i * 2 ^ L + j) ^^ bitOf b1 (i * 2 ^ L + j)) =
        decide ((k0.getD i 0 ^^^ k1.getD i 0).toNat % 2 ^ L = j) := by
  have hz : (List.zipWith (· ^^^ ·) k0 k1).length = n := by simp [l0, l1]
  have hzi : ∀ i, i < n → (List.zipWith (· ^^^ ·) k0 k1).getD i 0 = k0.getD i 0 ^^^ k1.getD i 0 := by
    intro i hi
    simp [List.getD_eq_getElem?_getD, List.getElem?_zipWith, List.getElem?_eq_getElem (show i < k0.length by omega),
      List.getElem?_eq_getElem (show i < k1.length by omega)]
  have hone : ∀ i j, i < n → j < 2 ^ L →
      oneHot L (fun t => ((List.zipWith (· ^^^ ·) k0 k1).getD i 0).getLsbD t) j =
        decide ((k0.getD i 0 ^^^ k1.getD i 0).toNat % 2 ^ L = j) := by
    intro i j hi hj
    refine oneHot_ok (Nat.mod_lt _ (Nat.two_pow_pos L)) ?_ hj
    intro t ht
    rw [hzi i hi, Nat.testBit_mod_two_pow, decide_eq_true ht]; simp [BitVec.getLsbD]
  have hcancel : ∀ a b : Bool, (a ^^ (a ^^ b)) = b := by decide
  unfold oneHotShares
  by_cases hL1 : L = 1
  · subst hL1
    rw [if_pos rfl]
    have p0 := pack4_spec (k0.map (oneBitRow 0))
    have p1 := pack4_spec (k1.map (oneBitRow 1))
    rw [List.length_map, l0] at p0
    rw [List.length_map, l1] at p1
    refine ⟨_, _, rfl, p0.1, p1.1, ?_⟩
    intro i j hi hj
    rw [Nat.pow_one] at hj ⊢
    rw [p0.2 i j hi hj, p1.2 i j hi hj, List.getD_eq_getElem?_getD, List.getD_eq_getElem?_getD, List.getElem?_map, List.getElem?_map,
      List.getElem?_eq_getElem (show i < k0.length by omega), List.getElem?_eq_getElem (show i < k1.length by omega)]
    simp only [Option.map_some, Option.getD_some]
    rw [oneBit_xor _ _ hj]
    simp [List.getD_eq_getElem?_getD, List.getElem?_eq_getElem (show i < k0.length by omega), List.getElem?_eq_getElem (show i < k1.length by omega)]
  · rw [if_neg hL1]
    simp only [hz]
    by_cases hL2 : L = 2
    · subst hL2
      rw [if_pos rfl]
      have hflat : ∀ g : Nat → Nat → Bool, (((List.range n).map fun i => bitRow (2 ^ 2) (g i)).flatten).length = n ∧
          ∀ i j, i < n → j < 4 → ((((List.range n).map fun i => bitRow (2 ^ 2) (g i)).flatten).getD i 0).getLsbD j = g i j := by
        intro g
        have hr : ∀ r ∈ (List.range n).map (fun i => bitRow (2 ^ 2) (g i)), r.length = 1 := by
          intro r hr
          obtain ⟨i, -, rfl⟩ := List.mem_map.mp hr
          rw [bitRow_length]; rfl
        refine ⟨by rw [flatten_len hr]; simp, ?_⟩
        intro i j hi hj
        have hf := flatten_get hr i (j := 0) (by omega)
        rw [Nat.mul_one, Nat.add_zero] at hf
        have := bitRow_bit (2 ^ 2) (g i) j
        rw [decide_eq_true (by omega), Bool.true_and, bitOf, show j / 8 = 0 by omega, show j % 8 = j by omega] at this
        rw [List.getD_eq_getElem?_getD, hf, List.getElem?_map, List.getElem?_range hi]
        simp only [Option.map_some, Option.bind_some]
        rw [← List.getD_eq_getElem?_getD]
        exact this
      have p0 := hflat oh
      have p1 := hflat fun i j => oh i j ^^ oneHot 2 (fun t => ((List.zipWith (· ^^^ ·) k0 k1).getD i 0).getLsbD t) j
      have q0 := pack2_spec ((List.range n).map fun i => bitRow (2 ^ 2) (oh i)).flatten
      have q1 := pack2_spec ((List.range n).map fun i => bitRow (2 ^ 2) fun j =>
        oh i j ^^ oneHot 2 (fun t => ((List.zipWith (· ^^^ ·) k0 k1).getD i 0).getLsbD t) j).flatten
      rw [p0.1] at q0
      rw [p1.1] at q1
      refine ⟨_, _, rfl, q0.1, q1.1, ?_⟩
      intro i j hi hj
      have hj4 : j < 4 := hj
      rw [show i * 2 ^ 2 + j = i * 4 + j by rfl]
      rw [q0.2 i j hi hj4, q1.2 i j hi hj4, p0.2 i j hi hj4, p1.2 i j hi hj4, hcancel, hone i j hi hj]
    · rw [if_neg hL2]
      have p0 := flatRows_spec (n := n) (L := L) (by omega) oh
      have p1 := flatRows_spec (n := n) (L := L) (by omega) fun i j =>
        oh i j ^^ oneHot L (fun t => ((List.zipWith (· ^^^ ·) k0 k1).getD i 0).getLsbD t) j
      refine ⟨_, _, rfl, p0.1, p1.1, ?_⟩
      intro i j hi hj
      rw [p0.2 i j hi hj, p1.2 i j hi hj, hcancel, hone i j hi hj]

end Radix
end SecJoin
