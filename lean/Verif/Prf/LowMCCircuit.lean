import Verif.Prf.LowMCProps
import Verif.GMW.InlineProps
/-!
# Lemmas about the circuit of LowMC
-/
namespace SecJoin
namespace LowMC
open Gmw (table evalGates evalGate evalGates_append)

/-! ## The meaning of a circuit while it is built -/

/-- The value of a wire, flags applied. -/
def Builder.val (c : Builder) (v : Nat → Bool) (w : Nat) : Bool := if c.inv w then !(evalGates c.gates v w) else evalGates c.gates v w

theorem table_flipA (t : Gmw.GateType) (a b : Bool) : table (flipA t) a b = table t (!a) b := by
  cases t <;> cases a <;> cases b <;> rfl

theorem table_flipB (t : Gmw.GateType) (a b : Bool) : table (flipB t) a b = table t a (!b) := by
  cases t <;> cases a <;> cases b <;> rfl

theorem val_addGate (c : Builder) (a b : Nat) (t : Gmw.GateType) (o : Nat) (v : Nat → Bool) (w : Nat) :
    (c.addGate a b t o).val v w = if w = o then table t (c.val v a) (c.val v b) else c.val v w := by
  unfold Builder.val Builder.addGate
  simp only [evalGates_append, evalGates, evalGate]
  by_cases hw : w = o
  · simp only [hw, if_true, Bool.false_eq_true, if_false]
    cases c.inv a <;> cases c.inv b <;> simp [table_flipA, table_flipB]
  · simp only [hw, if_false]

theorem val_addInvert (c : Builder) (w : Nat) (v : Nat → Bool) (x : Nat) :
    (c.addInvert w).val v x = if x = w then !(c.val v x) else c.val v x := by
  unfold Builder.val Builder.addInvert
  by_cases hx : x = w
  · simp only [hx, if_true]
    cases c.inv w <;> simp
  · simp only [hx, if_false]

/-! ## Wires -/

theorem wTemp_eq (n rounds i : Nat) : wTemp n rounds i = n * (rounds + 2) + n + i := by
  unfold wTemp; rw [show rounds + 3 = rounds + 2 + 1 by omega, Nat.mul_succ]

theorem wTemp2_eq (n rounds : Nat) : wTemp2 n rounds = n * (rounds + 2) + n + n := by
  unfold wTemp2; rw [show rounds + 4 = rounds + 2 + 1 + 1 by omega, Nat.mul_succ, Nat.mul_succ]

theorem wKey_lt {n rounds r i : Nat} (hr : r ≤ rounds) (hi : i < n) : wKey n r i < n * (rounds + 2) := by
  unfold wKey
  calc n * (r + 1) + i < n * (r + 1) + n := by omega
    _ = n * (r + 2) := (Nat.mul_succ n (r + 1)).symm
    _ ≤ n * (rounds + 2) := Nat.mul_le_mul_left _ (by omega)

theorem wMsg_lt {n rounds i : Nat} (hi : i < n) : wMsg n i < n * (rounds + 2) := by
  unfold wMsg
  calc i < n := hi
    _ = n * 1 := by omega
    _ ≤ n * (rounds + 2) := Nat.mul_le_mul_left _ (by omega)

/-! ## Layers of XOR gates -/

theorem xorLayer (v : Nat → Bool) (A B O : Nat → Nat) (n : Nat) (hA : ∀ i < n, ∀ j < n, A i ≠ O j) (hB : ∀ i < n, ∀ j < n, B i ≠ O j)
    (hO : ∀ i < n, ∀ j < n, O i = O j → i = j) (cir : Builder) : ∀ m, m ≤ n →
    let cir' := (List.range m).foldl (fun cir i => cir.addGate (A i) (B i) .xor (O i)) cir
    (∀ i < m, cir'.val v (O i) = (cir.val v (A i) ^^ cir.val v (B i))) ∧ ∀ w, (∀ i < m, w ≠ O i) → cir'.val v w = cir.val v w
  | 0, _ => ⟨by intro i hi; omega, fun w _ => rfl⟩
  | m + 1, hm => by
    obtain ⟨h1, h2⟩ := xorLayer v A B O n hA hB hO cir m (by omega)
    simp only [List.range_succ, List.foldl_append, List.foldl_cons, List.foldl_nil]
    refine ⟨fun i hi => ?_, fun w hw => ?_⟩
    · rw [val_addGate]
      by_cases him : i = m
      · subst him
        rw [if_pos rfl, h2 _ fun j hj => hA i (by omega) j (by omega), h2 _ fun j hj => hB i (by omega) j (by omega)]
        rfl
      · rw [if_neg (fun h => him (hO i (by omega) m (by omega) h))]
        exact h1 i (by omega)
    · rw [val_addGate, if_neg (hw m (by omega))]
      exact h2 w fun i hi => hw i (by omega)

/-! ## The boxes -/

theorem box_val (v : Nat → Bool) (cir : Builder) {a b c aa bb cc ab : Nat} (hnd : [a, b, c, aa, bb, cc, ab].Nodup) :
    let cir' := ((((((((cir.addGate a b .xor ab).addGate b c .and aa).addGate a c .and bb).addGate a b .and cc).addGate cc c .xor cc).addGate
      a aa .xor a).addGate ab bb .xor b).addGate cc ab .xor c)
    cir'.val v a = (cir.val v a ^^ (cir.val v b && cir.val v c)) ∧
    cir'.val v b = ((cir.val v a ^^ cir.val v b) ^^ (cir.val v a && cir.val v c)) ∧
    cir'.val v c = (((cir.val v a && cir.val v b) ^^ cir.val v c) ^^ (cir.val v a ^^ cir.val v b)) ∧
    ∀ w, w ≠ a → w ≠ b → w ≠ c → w ≠ aa → w ≠ bb → w ≠ cc → w ≠ ab → cir'.val v w = cir.val v w := by
  simp only [List.nodup_cons, List.mem_cons, List.not_mem_nil, or_false, not_or, List.nodup_nil, and_true] at hnd
  obtain ⟨⟨h1, h2, h3, h4, h5, h6⟩, ⟨h7, h8, h9, h10, h11⟩, ⟨h12, h13, h14, h15⟩, ⟨h16, h17, h18⟩, ⟨h19, h20⟩, h21, _⟩ := hnd
  simp only []
  refine ⟨?_, ?_, ?_, fun w g1 g2 g3 g4 g5 g6 g7 => ?_⟩
  · simp [val_addGate, h1, h2, h3, h4, h5, h6, h7, h8, h9, h10, h11, h12, h13, h14, h15, h16, h17, h18, h19, h20, h21, Ne.symm h1,
      Ne.symm h2, Ne.symm h3, Ne.symm h4, Ne.symm h5, Ne.symm h6, Ne.symm h7, Ne.symm h8, Ne.symm h9, Ne.symm h10, Ne.symm h11, table]
  · simp [val_addGate, h1, h2, h3, h4, h5, h6, h7, h8, h9, h10, h11, h12, h13, h14, h15, h16, h17, h18, h19, h20, h21, Ne.symm h1,
      Ne.symm h2, Ne.symm h3, Ne.symm h4, Ne.symm h5, Ne.symm h6, Ne.symm h7, Ne.symm h8, Ne.symm h9, Ne.symm h10, Ne.symm h11,
      Ne.symm h12, Ne.symm h13, Ne.symm h14, Ne.symm h15, Ne.symm h16, Ne.symm h17, Ne.symm h18, Ne.symm h19, Ne.symm h20, Ne.symm h21, table]
  · simp [val_addGate, h1, h2, h3, h4, h5, h6, h7, h8, h9, h10, h11, h12, h13, h14, h15, h16, h17, h18, h19, h20, h21, Ne.symm h1,
      Ne.symm h2, Ne.symm h3, Ne.symm h4, Ne.symm h5, Ne.symm h6, Ne.symm h7, Ne.symm h8, Ne.symm h9, Ne.symm h10, Ne.symm h11,
      Ne.symm h12, Ne.symm h13, Ne.symm h14, Ne.symm h15, Ne.symm h16, Ne.symm h17, Ne.symm h18, Ne.symm h19, Ne.symm h20, Ne.symm h21, table]
  · simp [val_addGate, g1, g2, g3, g4, g5, g6, g7]

/-- The table of a box on single bits. -/
theorem sbox_bits (x0 x1 x2 : Bool) :
    (sbox.getD (x0.toNat + 2 * x1.toNat + 4 * x2.toNat) 0).testBit 0 = (((x2 && x1) ^^ x0) ^^ (x2 ^^ x1)) ∧
    (sbox.getD (x0.toNat + 2 * x1.toNat + 4 * x2.toNat) 0).testBit 1 = ((x2 ^^ x1) ^^ (x2 && x0)) ∧
    (sbox.getD (x0.toNat + 2 * x1.toNat + 4 * x2.toNat) 0).testBit 2 = (x2 ^^ (x1 && x0)) := by
  cases x0 <;> cases x1 <;> cases x2 <;> decide

theorem chunk_eq {m : BitVec n} {boxes j : Nat} (hb : 3 * boxes ≤ n) (hj : j < boxes) :
    chunk m j = (m.getLsbD (3 * j)).toNat + 2 * (m.getLsbD (3 * j + 1)).toNat + 4 * (m.getLsbD (3 * j + 2)).toNat := by
  have h : ∀ c < 8, c = (c.testBit 0).toNat + 2 * (c.testBit 1).toNat + 4 * (c.testBit 2).toNat := by decide
  rw [h _ (chunk_lt hb hj)]
  simp only [chunk_testBit hb hj, show (0 < 3) from by omega, show (1 < 3) from by omega, show (2 < 3) from by omega, decide_true,
    Bool.true_and, Nat.add_zero]

/-- The state wires hold the block `s`. -/
def Holds (n rounds : Nat) (σ : Nat → Bool) (s : BitVec n) : Prop := ∀ q < n, σ (wState n rounds q) = s.getLsbD q

theorem boxes_val (v : Nat → Bool) {n rounds boxes : Nat} (hb : 3 * boxes ≤ n) (cir : Builder) (s : BitVec n)
    (hs : Holds n rounds (cir.val v) s) : ∀ m, m ≤ boxes →
    let cir' := (List.range m).foldl (boxGates n rounds) cir
    (∀ q < n, cir'.val v (wState n rounds q) = if q < 3 * m then (sbox.getD (chunk s (q / 3)) 0).testBit (q % 3) else s.getLsbD q) ∧
    ∀ w < n * (rounds + 2), cir'.val v w = cir.val v w
  | 0, _ => ⟨fun q hq => by rw [if_neg (by omega)]; exact hs q hq, fun w _ => rfl⟩
  | m + 1, hm => by
    obtain ⟨h1, h2⟩ := boxes_val v hb cir s hs m (by omega)
    simp only [List.range_succ, List.foldl_append, List.foldl_cons, List.foldl_nil]
    obtain ⟨c1, hc1⟩ : ∃ x, x = (List.range m).foldl (boxGates n rounds) cir := ⟨_, rfl⟩
    rw [← hc1] at h1 h2 ⊢
    have t2 := wTemp2_eq n rounds
    have hnd : [wState n rounds (m * 3 + 2), wState n rounds (m * 3 + 1), wState n rounds (m * 3 + 0), wTemp n rounds (m * 3 + 0),
        wTemp n rounds (m * 3 + 1), wTemp n rounds (m * 3 + 2), wTemp2 n rounds].Nodup := by
      simp only [wTemp_eq, wTemp2_eq, wState, List.nodup_cons, List.mem_cons, List.not_mem_nil, or_false, not_or, List.nodup_nil, and_true]
      refine ⟨⟨?_, ?_, ?_, ?_, ?_, ?_⟩, ⟨?_, ?_, ?_, ?_, ?_⟩, ⟨?_, ?_, ?_, ?_⟩, ⟨?_, ?_, ?_⟩, ⟨?_, ?_⟩, ?_, not_false⟩ <;> omega
    obtain ⟨b1, b2, b3, b4⟩ := box_val v c1 hnd
    have e0 := h1 (m * 3 + 0) (by omega)
    have e1 := h1 (m * 3 + 1) (by omega)
    have e2 := h1 (m * 3 + 2) (by omega)
    rw [if_neg (by omega)] at e0 e1 e2
    obtain ⟨x1, x2, x3⟩ := sbox_bits (s.getLsbD (3 * m)) (s.getLsbD (3 * m + 1)) (s.getLsbD (3 * m + 2))
    have hch := chunk_eq (m := s) hb (show m < boxes by omega)
    refine ⟨fun q hq => ?_, fun w hw => ?_⟩
    · by_cases hq0 : q = 3 * m
      · subst hq0
        rw [if_pos (by omega), show 3 * m / 3 = m by omega, show 3 * m % 3 = 0 by omega, hch, x1, show 3 * m = m * 3 + 0 by omega]
        refine b3.trans ?_
        rw [e0, e1, e2]
      · by_cases hq1 : q = 3 * m + 1
        · subst hq1
          rw [if_pos (by omega), show (3 * m + 1) / 3 = m by omega, show (3 * m + 1) % 3 = 1 by omega, hch, x2,
            show 3 * m = m * 3 + 0 by omega]
          refine b2.trans ?_
          rw [e0, e1, e2]
        · by_cases hq2 : q = 3 * m + 2
          · subst hq2
            rw [if_pos (by omega), show (3 * m + 2) / 3 = m by omega, show (3 * m + 2) % 3 = 2 by omega, hch, x3,
              show 3 * m = m * 3 + 0 by omega]
            refine b1.trans ?_
            rw [e0, e1, e2]
          · refine (b4 _ ?_ ?_ ?_ ?_ ?_ ?_ ?_).trans ?_
            all_goals try simp only [wTemp_eq, wTemp2_eq, wState]
            all_goals try omega
            have := h1 q hq
            rw [wState] at this
            rw [this]
            by_cases h : q < 3 * m
            · rw [if_pos h, if_pos (by omega)]
            · rw [if_neg h, if_neg (by omega)]
    · refine (b4 _ ?_ ?_ ?_ ?_ ?_ ?_ ?_).trans (h2 w hw)
      all_goals simp only [wTemp_eq, wTemp2_eq, wState]; omega

/-! ## The linear layer -/

/-- The sum modulo two of `f` from `a` on, `k` terms. -/
def xs (f : Nat → Bool) (a k : Nat) : Bool := (List.range' a k).foldl (fun acc j => acc ^^ f j) false

theorem foldl_xor (f : Nat → Bool) (l : List Nat) (x : Bool) : l.foldl (fun acc j => acc ^^ f j) x = (x ^^ l.foldl (fun acc j => acc ^^ f j) false) := by
  induction l generalizing x with
  | nil => simp
  | cons a t ih => rw [List.foldl_cons, ih, List.foldl_cons, ih (false ^^ f a)]; simp

theorem xs_split (f : Nat → Bool) (a k l : Nat) : xs f a (k + l) = (xs f a k ^^ xs f (a + k) l) := by
  unfold xs
  rw [← List.range'_append_1, List.foldl_append, foldl_xor]

theorem xs_zero {f : Nat → Bool} {a k : Nat} (h : ∀ j, a ≤ j → j < a + k → f j = false) : xs f a k = false := by
  induction k with
  | zero => rfl
  | succ k ih =>
    rw [xs_split, ih fun j h1 h2 => h j h1 (by omega)]
    simp [xs, h (a + k) (by omega) (by omega)]

theorem xs_one (f : Nat → Bool) (a : Nat) : xs f a 1 = f a := by simp [xs]

theorem parity_xs (f : Nat → Bool) (m : Nat) : (((List.range m).filter f).length % 2 == 1) = xs f 0 m := by
  induction m with
  | zero => rfl
  | succ m ih =>
    rw [xs_split, ← ih, xs_one, Nat.zero_add, List.range_succ, List.filter_append, List.length_append]
    cases hf : f m
    · simp [List.filter_cons, hf]
    · simp only [List.filter_cons, hf, if_true, List.filter_nil, List.length_singleton]
      rcases Nat.mod_two_eq_zero_or_one ((List.range m).filter f).length with h | h
      · have h2 : (((List.range m).filter f).length + 1) % 2 = 1 := by omega
        rw [h, h2]; rfl
      · have h2 : (((List.range m).filter f).length + 1) % 2 = 0 := by omega
        rw [h, h2]; rfl

theorem nextOne_ok {row : BitVec n} {j i : Nat} (h : nextOne row j = .ok i) :
    j ≤ i ∧ i < n ∧ row.getLsbD i = true ∧ ∀ q, j ≤ q → q < i → row.getLsbD q = false := by
  unfold nextOne at h
  cases hf : (List.range' j (n - j)).find? row.getLsbD with
  | none => rw [hf] at h; exact absurd h (by simp)
  | some i' =>
    rw [hf] at h
    injection h with h; subst h
    have h1 := List.mem_of_find?_eq_some hf
    rw [List.mem_range'_1] at h1
    refine ⟨h1.1, by omega, List.find?_some hf, fun q h2 h3 => ?_⟩
    rw [List.find?_range'_eq_some] at hf
    have := hf.2.2 q h2 h3
    simpa using this

theorem nextOne_ub {row : BitVec n} {j : Nat} : (∃ i, nextOne row j = .ok i) ∨ (nextOne row j = .error .ub ∧ ∀ q, j ≤ q → row.getLsbD q = false) := by
  unfold nextOne
  cases hf : (List.range' j (n - j)).find? row.getLsbD with
  | some i => exact Or.inl ⟨i, rfl⟩
  | none =>
    refine Or.inr ⟨rfl, fun q hq => ?_⟩
    rw [List.find?_eq_none] at hf
    by_cases hqn : q < n
    · have := hf q (by rw [List.mem_range'_1]; omega)
      simpa using this
    · exact BitVec.getLsbD_of_ge _ _ (by omega)

theorem count_add (row : BitVec n) (i : Nat) : count row = ((List.range i).filter row.getLsbD).length + ((List.range' i (n - i)).filter row.getLsbD).length := by
  unfold count
  by_cases h : i ≤ n
  · have e : List.range n = List.range i ++ List.range' i (n - i) := by
      rw [List.range_eq_range', List.range_eq_range']
      have := List.range'_append_1 (s := 0) (m := i) (n := n - i)
      rw [Nat.zero_add, show i + (n - i) = n by omega] at this
      exact this.symm
    rw [e, List.filter_append, List.length_append]
  · have e : (List.range i).filter row.getLsbD = (List.range n).filter row.getLsbD := by
      rw [List.range_eq_range', show i = n + (i - n) by omega, ← List.range'_append_1, List.filter_append, ← List.range_eq_range']
      have : (List.range' (0 + n) (i - n)).filter row.getLsbD = [] := by
        rw [List.filter_eq_nil_iff]
        intro a ha
        rw [List.mem_range'_1] at ha
        rw [BitVec.getLsbD_of_ge _ _ (by omega)]; simp
      rw [this, List.append_nil]
    rw [e, show n - i = 0 by omega]; simp

theorem filter_range_zero {row : BitVec n} {a k : Nat} (h : ∀ q, a ≤ q → q < a + k → row.getLsbD q = false) :
    (List.range' a k).filter row.getLsbD = [] := by
  rw [List.filter_eq_nil_iff]
  intro q hq
  rw [List.mem_range'_1] at hq
  rw [h q hq.1 hq.2]; simp

/-- A row has two ones exactly if both loops find one. -/
theorem two_ones (row : BitVec n) : (2 ≤ count row → ∃ i j, nextOne row 0 = .ok i ∧ nextOne row (i + 1) = .ok j) ∧
    (count row < 2 → (do let i ← nextOne row 0; nextOne row (i + 1)) = (.error .ub : Res Nat)) := by
  rcases nextOne_ub (row := row) (j := 0) with ⟨i, hi⟩ | ⟨h1, h2⟩
  · obtain ⟨i1, i2, i3, i4⟩ := nextOne_ok hi
    have c1 := count_add row i
    rw [List.range_eq_range', filter_range_zero (fun q h3 h4 => i4 q h3 (by omega)), show n - i = 1 + (n - (i + 1)) by omega,
      ← List.range'_append_1, List.filter_append, List.length_append] at c1
    simp only [List.length_nil, List.range'_one, List.filter_cons, i3, if_true, List.filter_nil, List.length_singleton] at c1
    rcases nextOne_ub (row := row) (j := i + 1) with ⟨j, hj⟩ | ⟨h1, h2⟩
    · obtain ⟨j1, j2, j3, _⟩ := nextOne_ok hj
      refine ⟨fun _ => ⟨i, j, hi, hj⟩, fun hc => ?_⟩
      have : 0 < ((List.range' (i + 1) (n - (i + 1))).filter row.getLsbD).length := by
        apply List.length_pos_of_mem (a := j)
        rw [List.mem_filter, List.mem_range'_1]
        exact ⟨by omega, j3⟩
      omega
    · refine ⟨fun hc => ?_, fun _ => by rw [hi, ok_bind, h1]⟩
      rw [filter_range_zero (fun q h3 _ => h2 q h3)] at c1
      simp at c1; omega
  · refine ⟨fun hc => ?_, fun _ => by rw [h1]; rfl⟩
    have : count row = 0 := by
      unfold count
      rw [List.range_eq_range', filter_range_zero fun q h3 _ => h2 q h3]; rfl
    omega

/-- The loop over the further ones of a row. -/
theorem moreGates (v : Nat → Bool) (row : BitVec n) (t : Nat) (S : Nat → Nat) (hS : ∀ j < n, S j ≠ t) (a : Nat) (cir : Builder) :
    ∀ k, a + k ≤ n →
    let cir' := (List.range' a k).foldl (fun cir j => if row.getLsbD j then cir.addGate t (S j) .xor t else cir) cir
    cir'.val v t = (cir.val v t ^^ xs (fun j => row.getLsbD j && cir.val v (S j)) a k) ∧ ∀ w, w ≠ t → cir'.val v w = cir.val v w
  | 0, _ => ⟨by simp [xs], fun w _ => rfl⟩
  | k + 1, hk => by
    obtain ⟨h1, h2⟩ := moreGates v row t S hS a cir k (by omega)
    simp only [List.range'_concat, Nat.one_mul, List.foldl_append, List.foldl_cons, List.foldl_nil]
    rw [xs_split, xs_one]
    cases hr : row.getLsbD (a + k)
    · simp only [Bool.false_eq_true, if_false, Bool.false_and, Bool.xor_false]
      exact ⟨h1, h2⟩
    · simp only [if_true, Bool.true_and]
      refine ⟨?_, fun w hw => ?_⟩
      · rw [val_addGate, if_pos rfl, h1, h2 _ (hS _ (by omega)), ← Bool.xor_assoc]; rfl
      · rw [val_addGate, if_neg hw]; exact h2 w hw

theorem xs_two (f : Nat → Bool) {i j n : Nat} (hij : i < j) (hj : j < n) (h1 : ∀ q < i, f q = false) (h2 : ∀ q, i < q → q < j → f q = false) :
    xs f 0 n = ((f i ^^ f j) ^^ xs f (j + 1) (n - (j + 1))) := by
  rw [show n = i + (1 + ((j - (i + 1)) + (1 + (n - (j + 1))))) by omega, xs_split, xs_split, xs_split, xs_split, xs_one,
    xs_zero fun q _ hq => h1 q (by omega), Nat.zero_add, xs_zero (a := i + 1) fun q h3 h4 => h2 q (by omega) (by omega),
    show i + 1 + (j - (i + 1)) = j by omega, xs_one]
  simp only [Bool.false_xor, Bool.xor_assoc]
  rw [show i + (1 + (j - (i + 1) + (1 + (n - (j + 1))))) - (j + 1) = n - (j + 1) by omega]

theorem row_val (v : Nat → Bool) {n rounds i : Nat} (M : Mtx n) (hM : i < M.length) (h2 : 2 ≤ count M[i]) (cir : Builder) :
    ∃ cir', rowGates rounds M cir i = .ok cir' ∧
      cir'.val v (wTemp n rounds i) = xs (fun j => M[i].getLsbD j && cir.val v (wState n rounds j)) 0 n ∧
      ∀ w, w ≠ wTemp n rounds i → cir'.val v w = cir.val v w := by
  obtain ⟨a, b, ha, hb⟩ := (two_ones M[i]).1 h2
  obtain ⟨a1, a2, a3, a4⟩ := nextOne_ok ha
  obtain ⟨b1, b2, b3, b4⟩ := nextOne_ok hb
  have hne : ∀ j < n, wState n rounds j ≠ wTemp n rounds i := by intro j hj; rw [wTemp_eq, wState]; omega
  unfold rowGates
  simp only []
  rw [rd_ok hM, ok_bind, ha, ok_bind, hb, ok_bind]
  obtain ⟨m1, m2⟩ := moreGates v M[i] (wTemp n rounds i) (wState n rounds) hne (b + 1)
    (cir.addGate (wState n rounds a) (wState n rounds b) .xor (wTemp n rounds i)) (n - (b + 1)) (by omega)
  refine ⟨_, rfl, ?_, fun w hw => ?_⟩
  · rw [m1, val_addGate, if_pos rfl]
    rw [xs_two (fun j => M[i].getLsbD j && cir.val v (wState n rounds j)) (show a < b by omega) b2
      (fun q hq => by simp [a4 q (by omega) hq]) (fun q h5 h6 => by simp [b4 q (by omega) h6])]
    rw [a3, b3]
    congr 1
    unfold xs
    have : ∀ (l : List Nat) (x : Bool), (∀ j ∈ l, j < n) → l.foldl (fun acc j => acc ^^ (M[i].getLsbD j &&
        (cir.addGate (wState n rounds a) (wState n rounds b) .xor (wTemp n rounds i)).val v (wState n rounds j))) x =
        l.foldl (fun acc j => acc ^^ (M[i].getLsbD j && cir.val v (wState n rounds j))) x := by
      intro l
      induction l with
      | nil => intro x _; rfl
      | cons y t ih =>
        intro x hx
        rw [List.foldl_cons, List.foldl_cons, val_addGate, if_neg (hne y (hx y (by simp)))]
        exact ih _ fun j hj => hx j (by simp [hj])
    exact this _ _ fun j hj => by rw [List.mem_range'_1] at hj; omega
  · rw [m2 w hw, val_addGate, if_neg hw]

theorem lin_val (v : Nat → Bool) {n rounds : Nat} (M : Mtx n) (hM : n ≤ M.length) (h2 : ∀ row ∈ M, 2 ≤ count row) (cir : Builder) (s : BitVec n)
    (hs : Holds n rounds (cir.val v) s) : ∀ m, m ≤ n → ∃ cir', (List.range m).foldlM (rowGates rounds M) cir = .ok cir' ∧
      (∀ i < m, cir'.val v (wTemp n rounds i) = (count (s &&& M.getD i 0) % 2 == 1)) ∧
      ∀ w < n * (rounds + 2) + n, cir'.val v w = cir.val v w
  | 0, _ => ⟨cir, rfl, by intro i hi; omega, fun _ _ => rfl⟩
  | m + 1, hm => by
    obtain ⟨c1, h1, h3, h4⟩ := lin_val v M hM h2 cir s hs m (by omega)
    have hmM : m < M.length := by omega
    obtain ⟨c2, k1, k2, k3⟩ := row_val v (rounds := rounds) M hmM (h2 _ (List.getElem_mem hmM)) c1
    refine ⟨c2, ?_, fun i hi => ?_, fun w hw => ?_⟩
    · rw [List.range_succ, List.foldlM_append, h1, ok_bind]
      simp only [List.foldlM_cons, List.foldlM_nil]
      rw [k1]; rfl
    · by_cases him : i = m
      · subst him
        rw [k2, count, parity_xs]
        unfold xs
        have : ∀ (l : List Nat) (x : Bool), (∀ j ∈ l, j < n) → l.foldl (fun acc j => acc ^^ (M[i].getLsbD j &&
            c1.val v (wState n rounds j))) x = l.foldl (fun acc j => acc ^^ (s &&& M.getD i 0).getLsbD j) x := by
          intro l
          induction l with
          | nil => intro x _; rfl
          | cons y t ih =>
            intro x hx
            have hy := hx y (by simp)
            rw [List.foldl_cons, List.foldl_cons, h4 _ (by rw [wState]; omega), hs y hy, BitVec.getLsbD_and,
              List.getD_eq_getElem?_getD, List.getElem?_eq_getElem hmM, Option.getD_some, Bool.and_comm]
            rw [ih _ fun j hj => hx j (by simp [hj])]
            rw [List.getD_eq_getElem?_getD, List.getElem?_eq_getElem hmM, Option.getD_some]
        exact this _ _ fun j hj => by rw [List.mem_range'_1] at hj; omega
      · rw [k3 _ (by rw [wTemp_eq, wTemp_eq]; omega)]
        exact h3 i (by omega)
    · rw [k3 w (by rw [wTemp_eq]; omega)]
      exact h4 w hw

theorem inv_val (v : Nat → Bool) {n rounds : Nat} (rc : BitVec n) (cir : Builder) : ∀ m, m ≤ n →
    let cir' := (List.range m).foldl (fun (cir : Builder) i => if rc.getLsbD i then cir.addInvert (wTemp n rounds i) else cir) cir
    (∀ i < n, cir'.val v (wTemp n rounds i) = if i < m then (cir.val v (wTemp n rounds i) ^^ rc.getLsbD i) else cir.val v (wTemp n rounds i)) ∧
      ∀ w < n * (rounds + 2) + n, cir'.val v w = cir.val v w
  | 0, _ => ⟨fun i _ => by rw [if_neg (by omega)]; rfl, fun _ _ => rfl⟩
  | m + 1, hm => by
    obtain ⟨h1, h2⟩ := inv_val v (rounds := rounds) rc cir m (by omega)
    simp only [List.range_succ, List.foldl_append, List.foldl_cons, List.foldl_nil]
    cases hr : rc.getLsbD m
    · simp only [Bool.false_eq_true, if_false]
      refine ⟨fun i hi => ?_, h2⟩
      rw [h1 i hi]
      by_cases him : i = m
      · subst him; rw [if_neg (by omega), if_pos (by omega), hr, Bool.xor_false]
      · by_cases h : i < m
        · rw [if_pos h, if_pos (by omega)]
        · rw [if_neg h, if_neg (by omega)]
    · simp only [if_true]
      refine ⟨fun i hi => ?_, fun w hw => ?_⟩
      · rw [val_addInvert, h1 i hi]
        by_cases him : i = m
        · subst him; rw [if_pos rfl, if_neg (by omega), if_pos (by omega), hr, Bool.xor_true]
        · rw [if_neg (by rw [wTemp_eq, wTemp_eq]; omega)]
          by_cases h : i < m
          · rw [if_pos h, if_pos (by omega)]
          · rw [if_neg h, if_neg (by omega)]
      · rw [val_addInvert, if_neg (by rw [wTemp_eq]; omega)]
        exact h2 w hw

/-! ## Rounds -/

/-- The wires of the round keys hold the blocks `rks`. -/
def HoldsKeys (n rounds : Nat) (σ : Nat → Bool) (rks : List (BitVec n)) : Prop :=
  ∀ r ≤ rounds, ∀ q < n, σ (wKey n r q) = (rks.getD r 0).getLsbD q

/-- One round of the cipher, with the round keys `rks`. -/
def cipherRound (c : Inst n k) (rks : List (BitVec n)) (s : BitVec n) (r : Nat) : Res (BitVec n) := do
  let s ← substitute sbox c.boxes s
  let M ← rd c.lin (r - 1)
  let s ← mul n M s
  let rc ← rd c.consts (r - 1)
  let rk ← rd rks r
  .ok (s ^^^ rc ^^^ rk)

theorem mul_bits {n k : Nat} (M : Mtx k) (hM : n ≤ M.length) (m : BitVec k) :
    ∃ t, mul n M m = .ok t ∧ ∀ i < n, t.getLsbD i = (count (m &&& M.getD i 0) % 2 == 1) := by
  obtain ⟨t, ht, hb⟩ := fillBits n (fun i => count (m &&& M.getD i 0) % 2 == 1) (g := fun t i => do
    let row ← rd M i
    .ok (setBit t i (count (m &&& row) % 2 == 1))) (by
      intro t i hi
      rw [rd_ok (by omega), ok_bind, List.getD_eq_getElem?_getD, List.getElem?_eq_getElem (show i < M.length by omega)]
      rfl) n (le_refl _)
  exact ⟨t, ht, fun i hi => by rw [hb]; simp [hi]⟩

theorem round_val (v : Nat → Bool) {c : Inst n k} (hc : c.Ok) (h2 : ∀ M ∈ c.lin, ∀ row ∈ M, 2 ≤ count row) {rks : List (BitVec n)}
    (hr : rks.length = c.rounds + 1) {r : Nat} (hrr : r < c.rounds) (cir : Builder) (s : BitVec n) (hs : Holds n c.rounds (cir.val v) s)
    (hk : HoldsKeys n c.rounds (cir.val v) rks) : ∃ cir' s', roundGates c cir r = .ok cir' ∧ cipherRound c rks s (r + 1) = .ok s' ∧
      Holds n c.rounds (cir'.val v) s' ∧ HoldsKeys n c.rounds (cir'.val v) rks := by
  have hl : r < c.lin.length := by rw [hc.lin]; omega
  have hcs : r < c.consts.length := by rw [hc.consts]; omega
  have hMl := hc.rows _ (List.getElem_mem hl)
  obtain ⟨s1, u1, u2⟩ := substitute_ok sbox rfl (by decide) s hc.boxes
  obtain ⟨b1, b2⟩ := boxes_val v hc.boxes cir s hs c.boxes (le_refl _)
  obtain ⟨c1, hc1⟩ : ∃ x, x = (List.range c.boxes).foldl (boxGates n c.rounds) cir := ⟨_, rfl⟩
  simp only [← hc1] at b1 b2
  have hs1 : Holds n c.rounds (c1.val v) s1 := fun q hq => by rw [b1 q hq, u2 q hq]
  obtain ⟨c2, l1, l2, l3⟩ := lin_val v c.lin[r] (by omega) (h2 _ (List.getElem_mem hl)) c1 s1 hs1 n (le_refl _)
  obtain ⟨i1, i2⟩ := inv_val v (rounds := c.rounds) c.consts[r] c2 n (le_refl _)
  obtain ⟨c3, hc3⟩ : ∃ x, x = (List.range n).foldl (fun (cir : Builder) i =>
    if c.consts[r].getLsbD i then cir.addInvert (wTemp n c.rounds i) else cir) c2 := ⟨_, rfl⟩
  simp only [← hc3] at i1 i2
  obtain ⟨x1, x2⟩ := xorLayer v (wTemp n c.rounds) (wKey n (r + 1)) (wState n c.rounds) n
    (fun i hi j hj => by rw [wTemp_eq, wState]; omega)
    (fun i hi j hj => by have := wKey_lt (rounds := c.rounds) (show r + 1 ≤ c.rounds by omega) hi; rw [wState]; omega)
    (fun i hi j hj h => by rw [wState, wState] at h; omega) c3 n (le_refl _)
  obtain ⟨t, m1, m2⟩ := mul_bits (n := n) c.lin[r] (by omega) s1
  have hrk : r + 1 < rks.length := by omega
  refine ⟨(List.range n).foldl (fun cir i => cir.addGate (wTemp n c.rounds i) (wKey n (r + 1) i) .xor (wState n c.rounds i)) c3,
    t ^^^ c.consts[r] ^^^ rks[r + 1], ?_, ?_, fun q hq => ?_, fun r' hr' q hq => ?_⟩
  · unfold roundGates
    simp only []
    rw [rd_ok hl, ok_bind, ← hc1, l1, ok_bind, rd_ok hcs, ok_bind, ← hc3]
  · unfold cipherRound
    rw [u1, ok_bind, Nat.add_sub_cancel, rd_ok hl, ok_bind, m1, ok_bind, rd_ok hcs, ok_bind, rd_ok hrk, ok_bind]
  · rw [x1 q hq, i1 q hq, if_pos hq, l2 q hq, i2 _ (by have := wKey_lt (rounds := c.rounds) (show r + 1 ≤ c.rounds by omega) hq; omega),
      l3 _ (by have := wKey_lt (rounds := c.rounds) (show r + 1 ≤ c.rounds by omega) hq; omega), b2 _ (wKey_lt (by omega) hq),
      hk (r + 1) (by omega) q hq, BitVec.getLsbD_xor, BitVec.getLsbD_xor, m2 q hq,
      show rks.getD (r + 1) 0 = rks[r + 1] by rw [List.getD_eq_getElem?_getD, List.getElem?_eq_getElem hrk]; rfl]
  · have hw := wKey_lt hr' hq
    rw [x2 _ (fun i hi => by rw [wState]; omega), i2 _ (by omega), l3 _ (by omega), b2 _ hw]
    exact hk r' hr' q hq

theorem addGates_val (v : Nat → Bool) {c : Inst n k} (hc : c.Ok) (h2 : ∀ M ∈ c.lin, ∀ row ∈ M, 2 ≤ count row) {rks : List (BitVec n)}
    (hr : rks.length = c.rounds + 1) (cir : Builder) (msg : BitVec n) (hm : ∀ q < n, cir.val v (wMsg n q) = msg.getLsbD q)
    (hk : HoldsKeys n c.rounds (cir.val v) rks) : ∃ cir' s', addGates c cir = .ok cir' ∧
      encrypt { c with roundKeys := rks } msg = .ok s' ∧ Holds n c.rounds (cir'.val v) s' := by
  obtain ⟨x1, x2⟩ := xorLayer v (wMsg n) (wKey n 0) (wState n c.rounds) n
    (fun i hi j hj => by have := wMsg_lt (rounds := c.rounds) hi; rw [wState]; omega)
    (fun i hi j hj => by have := wKey_lt (rounds := c.rounds) (show 0 ≤ c.rounds by omega) hi; rw [wState]; omega)
    (fun i hi j hj h => by rw [wState, wState] at h; omega) cir n (le_refl _)
  obtain ⟨c1, hc1⟩ : ∃ x, x = (List.range n).foldl (fun (cir : Builder) i => cir.addGate (wMsg n i) (wKey n 0 i) .xor (wState n c.rounds i)) cir :=
    ⟨_, rfl⟩
  simp only [← hc1] at x1 x2
  have h0 : 0 < rks.length := by omega
  have hs : Holds n c.rounds (c1.val v) (msg ^^^ rks[0]) := by
    intro q hq
    rw [x1 q hq, hm q hq, hk 0 (by omega) q hq, BitVec.getLsbD_xor, List.getD_eq_getElem?_getD, List.getElem?_eq_getElem h0, Option.getD_some]
  have hk1 : HoldsKeys n c.rounds (c1.val v) rks := by
    intro r hrr q hq
    have := wKey_lt hrr hq
    rw [x2 _ (fun i hi => by rw [wState]; omega)]
    exact hk r hrr q hq
  have key : ∀ r, r ≤ c.rounds → ∃ cir' s', (List.range r).foldlM (roundGates c) c1 = .ok cir' ∧
      (List.range' 1 r).foldlM (cipherRound c rks) (msg ^^^ rks[0]) = .ok s' ∧
      Holds n c.rounds (cir'.val v) s' ∧ HoldsKeys n c.rounds (cir'.val v) rks := by
    intro r
    induction r with
    | zero => intro _; exact ⟨c1, _, rfl, rfl, hs, hk1⟩
    | succ r ih =>
      intro hrr
      obtain ⟨ca, sa, a1, a2, a3, a4⟩ := ih (by omega)
      obtain ⟨cb, sb, b1, b2, b3, b4⟩ := round_val v hc h2 hr (show r < c.rounds by omega) ca sa a3 a4
      refine ⟨cb, sb, ?_, ?_, b3, b4⟩
      · rw [List.range_succ, List.foldlM_append, a1, ok_bind]
        simp only [List.foldlM_cons, List.foldlM_nil]
        rw [b1]; rfl
      · rw [List.range'_concat, List.foldlM_append, a2, ok_bind]
        simp only [List.foldlM_cons, List.foldlM_nil]
        rw [show 1 + 1 * r = r + 1 by omega, b2]; rfl
  obtain ⟨cir', s', k1, k2, k3, _⟩ := key c.rounds (le_refl _)
  refine ⟨cir', s', ?_, ?_, k3⟩
  · unfold addGates; rw [← hc1]; exact k1
  · unfold encrypt
    show (do let k0 ← rd rks 0; _) = _
    rw [rd_ok h0, ok_bind]
    exact k2

/-! ## Inputs -/

/-- The bits of a block, lowest first. -/
def bits (x : BitVec n) : List Bool := (List.range n).map x.getLsbD

theorem wires_flatten (n : Nat) : ∀ R, ((List.range n).map (wMsg n) :: (List.range R).map fun r => (List.range n).map (wKey n r)).flatten =
    List.range (n * (R + 1))
  | 0 => by simp [show wMsg n = id from rfl]
  | R + 1 => by
    have ih := wires_flatten n R
    rw [List.flatten_cons] at ih ⊢
    rw [List.range_succ, List.map_append, List.flatten_append, ← List.append_assoc, ih, Nat.mul_succ n (R + 1), List.range_add]
    simp [wKey]

theorem bits_flatten : ∀ (L : List (BitVec n)) (r q : Nat), r < L.length → q < n →
    ((L.map bits).flatten).getD (n * r + q) false = (L.getD r 0).getLsbD q
  | [], r, q, h, _ => absurd h (by simp)
  | x :: L, 0, q, _, hq => by
    rw [List.map_cons, List.flatten_cons, Nat.mul_zero, Nat.zero_add, List.getD_eq_getElem?_getD,
      List.getElem?_append_left (by simp [bits]; exact hq)]
    simp [bits, hq]
  | x :: L, r + 1, q, h, hq => by
    have ih := bits_flatten L r q (by simpa using h) hq
    rw [List.getD_eq_getElem?_getD] at ih
    have hl : (bits x).length = n := by simp [bits]
    rw [List.map_cons, List.flatten_cons, List.getD_eq_getElem?_getD, List.getElem?_append_right (by rw [hl, Nat.mul_succ]; omega), hl,
      show n * (r + 1) + q - n = n * r + q by rw [Nat.mul_succ]; omega, ih]
    rfl

theorem idxOf_range {w N : Nat} (h : w < N) : (List.range N).idxOf w = w := by
  have := List.Nodup.idxOf_getElem (List.nodup_range (n := N)) w (by simpa using h)
  simpa using this

end LowMC
end SecJoin
