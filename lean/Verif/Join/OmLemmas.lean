import Verif.Join.OmModel
import Verif.Sort.RadixProps
import Verif.AggTree.SecureProps
import Mathlib.Tactic.Ring
namespace SecJoin
namespace OmJoin
open Gmw

/-- One level of gates that read wires none of them writes. -/
theorem evalLevel (m : Nat) (f g o : Nat → Nat) (ty : GateType) (v : Nat → Bool)
    (hinj : ∀ a, a < m → ∀ b, b < m → o a = o b → a = b)
    (hf : ∀ a, a < m → ∀ b, b < m → f a ≠ o b) (hg : ∀ a, a < m → ∀ b, b < m → g a ≠ o b) :
    (∀ j, j < m → evalOps ((List.range m).map fun j => .gate ⟨f j, g j, o j, ty⟩) v (o j) = table ty (v (f j)) (v (g j))) ∧
    (∀ w, (∀ j, j < m → w ≠ o j) → evalOps ((List.range m).map fun j => .gate ⟨f j, g j, o j, ty⟩) v w = v w) := by
  induction m with
  | zero => exact ⟨fun _ h => absurd h (by omega), fun _ _ => rfl⟩
  | succ m ih =>
    obtain ⟨h1, h2⟩ := ih (fun a ha b hb => hinj a (by omega) b (by omega)) (fun a ha b hb => hf a (by omega) b (by omega))
      (fun a ha b hb => hg a (by omega) b (by omega))
    rw [List.range_succ, List.map_append, evalOps_append]
    simp only [List.map_cons, List.map_nil, evalOps, Op.eval, evalGate]
    constructor
    · intro j hj
      by_cases e : j = m
      · subst e
        rw [if_pos rfl, h2 _ (fun b hb => hf j (by omega) b (by omega)), h2 _ (fun b hb => hg j (by omega) b (by omega))]
      · have : o j ≠ o m := fun h => e (hinj j hj m (by omega) h)
        rw [if_neg this]
        exact h1 j (by omega)
    · intro w hw
      rw [if_neg (hw m (by omega))]
      exact h2 w (fun j hj => hw j (by omega))

/-- All the bits `t` in `[l, l + k)` satisfy `e`. -/
def allBits (e : Nat → Bool) (l : Nat) : Nat → Bool
  | 0 => true
  | k + 1 => allBits e l k && e (l + k)

theorem allBits_add (e : Nat → Bool) (l a b : Nat) : allBits e l (a + b) = (allBits e l a && allBits e (l + a) b) := by
  induction b with
  | zero => simp [allBits]
  | succ b ih => rw [← Nat.add_assoc, allBits, ih, allBits, Bool.and_assoc, Nat.add_assoc]

theorem allBits_iff (e : Nat → Bool) (l k : Nat) : allBits e l k = true ↔ ∀ t, t < k → e (l + t) = true := by
  induction k with
  | zero => simp [allBits]
  | succ k ih =>
    rw [allBits, Bool.and_eq_true, ih]
    constructor
    · rintro ⟨h1, h2⟩ t ht
      by_cases h : t = k
      · subst h; exact h2
      · exact h1 t (by omega)
    · intro h
      exact ⟨fun t ht => h t (by omega), h k (by omega)⟩

/-- The wires `temp` of level `i` hold the ANDs of blocks of `2^i` comparisons. -/
structure LevelInv (bits : Nat) (e : Nat → Bool) (i : Nat) (temp : List Nat) (next : Nat) (v : Nat → Bool) : Prop where
  len : temp.length = bits / 2 ^ i
  lt : ∀ w ∈ temp, w < next ∧ w ≠ 2 * bits
  out : 2 * bits < next
  val : ∀ j, j < temp.length → v (temp.getD j 0) = allBits e (j * 2 ^ i) (2 ^ i)

theorem ctrlLevels_ok {bits : Nat} (e : Nat → Bool) : ∀ (left i : Nat) (temp : List Nat) (next : Nat) (v : Nat → Bool),
    i < Nat.log 2 bits → Nat.log 2 bits ≤ i + left → LevelInv bits e i temp next v →
    evalOps (ctrlLevels bits left i temp next) v (2 * bits) = allBits e 0 (2 ^ Nat.log 2 bits) := by
  intro left
  induction left with
  | zero => intro i temp next v h1 h2; omega
  | succ left ih =>
    intro i temp next v h1 h2 hv
    have hb : bits ≠ 0 := by rintro rfl; simp at h1
    have hsz : bits / 2 / 2 ^ i = bits / 2 ^ i / 2 := by rw [Nat.div_div_eq_div_mul, Nat.div_div_eq_div_mul, Nat.mul_comm]
    have hsz' : bits / 2 / 2 ^ i = bits / 2 ^ (i + 1) := by rw [hsz, Nat.div_div_eq_div_mul, ← Nat.pow_succ]
    have hpos : 0 < bits / 2 ^ (i + 1) := by
      apply Nat.div_pos _ (Nat.two_pow_pos _)
      exact Nat.pow_le_of_le_log hb h1
    have hlen := hv.len
    have hmem : ∀ j, j < temp.length → temp.getD j 0 < next ∧ temp.getD j 0 ≠ 2 * bits := by
      intro j hj
      rw [List.getD_eq_getElem?_getD, List.getElem?_eq_getElem hj]
      exact hv.lt _ (List.getElem_mem hj)
    have hin : ∀ a, a < bits / 2 ^ (i + 1) → 2 * a + 1 < temp.length := by
      intro a ha
      rw [← hsz', hsz] at ha
      omega
    have hblk : ∀ j, (allBits e (2 * j * 2 ^ i) (2 ^ i) && allBits e ((2 * j + 1) * 2 ^ i) (2 ^ i)) =
        allBits e (j * 2 ^ (i + 1)) (2 ^ (i + 1)) := by
      intro j
      rw [show 2 ^ (i + 1) = 2 ^ i + 2 ^ i by rw [Nat.pow_succ]; omega, allBits_add]
      congr 2 <;> ring
    rw [ctrlLevels]
    simp only [hsz', evalOps_append]
    by_cases h1' : bits / 2 ^ (i + 1) = 1
    · -- the output level
      have hlog : i + 1 = Nat.log 2 bits := by
        have : Nat.log 2 (bits / 2 ^ (i + 1)) = 0 := by rw [h1']; simp
        rw [Nat.log_div_base_pow] at this
        omega
      rw [h1', if_pos rfl, if_pos rfl]
      obtain ⟨e1, e2⟩ := evalLevel 1 (fun j => temp.getD (2 * j) 0) (fun j => temp.getD (2 * j + 1) 0)
        (fun j => [2 * bits].getD j 0) .and v (fun a ha b hb _ => by omega)
        (fun a ha b hb => by
          have : a = 0 := by omega
          have : b = 0 := by omega
          subst a b
          exact (hmem 0 (by have := hin 0 hpos; omega)).2)
        (fun a ha b hb => by
          have : a = 0 := by omega
          have : b = 0 := by omega
          subst a b
          exact (hmem 1 (by have := hin 0 hpos; omega)).2)
      have h0 := e1 0 (by omega)
      simp only [List.getD_cons_zero] at h0
      have hrest : ∀ (left' i' : Nat) (tmp : List Nat) (nx : Nat) (u : Nat → Bool), Nat.log 2 bits ≤ i' →
          evalOps (ctrlLevels bits left' i' tmp nx) u (2 * bits) = u (2 * bits) := by
        intro left'
        induction left' with
        | zero => intros; rfl
        | succ left' ih' =>
          intro i' tmp nx u hi'
          have hz : bits / 2 / 2 ^ i' = 0 := by
            rw [Nat.div_div_eq_div_mul, ← Nat.pow_succ', Nat.div_eq_of_lt]
            exact lt_of_lt_of_le (Nat.lt_pow_succ_log_self (by omega) bits) (Nat.pow_le_pow_right (by omega) (by omega))
          rw [ctrlLevels]
          simp only [hz]
          rw [evalOps_append, ih' _ _ _ _ (by omega)]
          rfl
      rw [hrest _ _ _ _ _ (by omega)]
      rw [h0]
      simp only [table]
      rw [show 2 * 0 = 0 by rfl] at *
      rw [hv.val 0 (by have := hin 0 hpos; omega), hv.val (0 + 1) (by have := hin 0 hpos; omega), ← hlog]
      have := hblk 0
      simpa using this
    · rw [if_neg h1', if_neg h1']
      have hnext : i + 1 < Nat.log 2 bits := by
        by_contra hc
        have : i + 1 = Nat.log 2 bits := by omega
        apply h1'
        have h3 : bits / 2 ^ (i + 1) < 2 := by
          rw [Nat.div_lt_iff_lt_mul (Nat.two_pow_pos _), ← Nat.pow_succ', this]
          exact Nat.lt_pow_succ_log_self (by omega) bits
        omega
      obtain ⟨e1, e2⟩ := evalLevel (bits / 2 ^ (i + 1)) (fun j => temp.getD (2 * j) 0) (fun j => temp.getD (2 * j + 1) 0)
        (fun j => (List.range' next (bits / 2 ^ (i + 1))).getD j 0) .and v
        (fun a ha b hb h => by simp [List.getD_eq_getElem?_getD, ha, hb] at h; exact h)
        (fun a ha b hb => by
          have := (hmem (2 * a) (by have := hin a ha; omega)).1
          simp [List.getD_eq_getElem?_getD, hb] at this ⊢
          omega)
        (fun a ha b hb => by
          have := (hmem (2 * a + 1) (hin a ha)).1
          simp [List.getD_eq_getElem?_getD, hb] at this ⊢
          omega)
      apply ih (i + 1) _ _ _ hnext (by omega)
      refine ⟨by simp, ?_, by have := hv.out; omega, ?_⟩
      · intro w hw
        simp only [List.mem_range'_1] at hw
        have := hv.out
        omega
      · intro j hj
        rw [List.length_range'] at hj
        rw [e1 j hj]
        simp only [table]
        rw [hv.val _ (by have := hin j hj; omega), hv.val _ (hin j hj), hblk]

/-- The circuit compares the lowest `2^⌊log2 bits⌋` bits only. -/
theorem ctrlBit_ok {bits : Nat} (hb : 0 < bits) (a b : Nat → Bool) :
    ctrlBit bits a b = true ↔ ∀ t, t < 2 ^ Nat.log 2 bits → a t = b t := by
  have hle : 2 ^ Nat.log 2 bits ≤ bits := Nat.pow_log_le_self 2 (by omega)
  have key : ctrlBit bits a b = allBits (fun t => !(a t ^^ b t)) 0 (2 ^ Nat.log 2 bits) := by
    unfold ctrlBit ctrlOps
    by_cases h1 : bits = 1
    · subst h1
      simp [evalOps, Op.eval, evalGate, table, allBits, ctrlLevels]
    · simp only [h1, if_false]
      rw [evalOps_append]
      obtain ⟨e1, e2⟩ := evalLevel bits (fun i => i) (fun i => bits + i) (fun i => (List.range' (2 * bits + 1) bits).getD i 0)
        .nxor (fun w => if w < bits then a w else if w < 2 * bits then b (w - bits) else false)
        (fun a ha b hb h => by simp [List.getD_eq_getElem?_getD, ha, hb] at h; exact h)
        (fun a ha b hb => by simp [List.getD_eq_getElem?_getD, hb]; omega)
        (fun a ha b hb => by simp [List.getD_eq_getElem?_getD, hb]; omega)
      have hlog : 0 < Nat.log 2 bits := Nat.log_pos (by omega) (by omega)
      have hcl : Nat.log 2 bits ≤ 0 + Nat.clog 2 bits := by rw [Nat.zero_add]; exact Nat.log_le_clog 2 bits
      apply ctrlLevels_ok (fun t => !(a t ^^ b t)) _ 0 _ _ _ hlog hcl
      refine ⟨by simp, ?_, by omega, ?_⟩
      · intro w hw
        simp only [List.mem_range'_1] at hw
        omega
      · intro j hj
        rw [List.length_range'] at hj
        rw [e1 j hj]
        simp only [table]
        rw [if_pos hj, if_neg (by omega), if_pos (by omega), Nat.add_sub_cancel_left]
        simp [allBits]
  rw [key, allBits_iff]
  apply forall_congr'
  intro t
  apply imp_congr_right
  intro _
  rw [Nat.zero_add]
  cases a t <;> cases b t <;> simp

/-! ## Packing -/

theorem getD_of_mem {α : Type} {l : List α} {P : α → Prop} (h : ∀ x ∈ l, P x) {i : Nat} (hi : i < l.length) (d : α) : P (l.getD i d) := by
  rw [List.getD_eq_getElem?_getD, List.getElem?_eq_getElem hi]
  exact h _ (List.getElem_mem hi)

theorem putBytes_ok {off : Nat} {d s : Row} (h : off + s.length ≤ d.length) :
    putBytes off d s = .ok (d.take off ++ s ++ d.drop (off + s.length)) := by
  unfold putBytes; rw [if_pos h]

theorem putCol_ok {off W s : Nat} (hW : off + s ≤ W) : ∀ (ds ss : List Row), (∀ d ∈ ds, d.length = W) → (∀ x ∈ ss, x.length = s) →
    ss.length ≤ ds.length → ∃ r, putCol off ds ss = .ok r ∧ Shape ds.length W r ∧
      (∀ i, i < ss.length → r.getD i [] = (ds.getD i []).take off ++ ss.getD i [] ++ (ds.getD i []).drop (off + s)) ∧
      (∀ i, ss.length ≤ i → r.getD i [] = ds.getD i []) := by
  intro ds
  induction ds with
  | nil =>
    intro ss hd hs hl
    cases ss with
    | nil => exact ⟨[], rfl, ⟨rfl, by simp⟩, fun i hi => absurd hi (by simp), fun i _ => rfl⟩
    | cons _ _ => simp at hl
  | cons d ds ih =>
    intro ss hd hs hl
    cases ss with
    | nil => exact ⟨d :: ds, rfl, ⟨rfl, hd⟩, fun i hi => absurd hi (by simp), fun i _ => rfl⟩
    | cons x xs =>
      have hx := hs x (by simp)
      have hdl := hd d (by simp)
      obtain ⟨r, e, sh, g1, g2⟩ := ih xs (fun a ha => hd a (by simp [ha])) (fun a ha => hs a (by simp [ha])) (by simpa using hl)
      refine ⟨(d.take off ++ x ++ d.drop (off + x.length)) :: r, ?_, ⟨by simp [sh.1], ?_⟩, ?_, ?_⟩
      · rw [putCol, putBytes_ok (by omega), ok_bind, e, ok_bind]
      · intro y hy
        rcases List.mem_cons.mp hy with rfl | hy
        · simp [hdl, hx]; omega
        · exact sh.2 y hy
      · intro i hi
        cases i with
        | zero => simp [hx]
        | succ i => simpa using g1 i (by simpa using hi)
      · intro i hi
        cases i with
        | zero => simp at hi
        | succ i => simpa using g2 i (by simpa using hi)

/-- The bytes of all columns of row `i` after each other. -/
def packRow (cols : List Column) (i : Nat) : Row := (cols.map fun c => c.data.rows.getD i []).flatten

theorem packRow_length {n : Nat} {cols : List Column} (h : ∀ c ∈ cols, Shape n (colBytes c) c.data.rows) {i : Nat} (hi : i < n) :
    (packRow cols i).length = (cols.map colBytes).sum := by
  induction cols with
  | nil => rfl
  | cons c cs ih =>
    have := ih (fun a ha => h a (by simp [ha]))
    simp only [packRow, List.map_cons, List.flatten_cons, List.length_append, List.sum_cons] at this ⊢
    rw [this, shape_getD (h c (by simp)) hi]

theorem take_drop_mid {α : Type} (a b c : List α) (k : Nat) (h : k = a.length + b.length) : (a ++ b ++ c).drop k = c := by
  subst h
  rw [← List.length_append, List.drop_left]

theorem putCols_ok {nL n W : Nat} (hn : nL ≤ n) : ∀ (cols : List Column) (off : Nat) (dst : List Row), Shape n W dst →
    (∀ c ∈ cols, Shape nL (colBytes c) c.data.rows) → off + (cols.map colBytes).sum ≤ W →
    ∃ r, putCols dst (starts off cols) cols = .ok r ∧ Shape n W r ∧
      (∀ i, i < nL → r.getD i [] = (dst.getD i []).take off ++ packRow cols i ++ (dst.getD i []).drop (off + (cols.map colBytes).sum)) ∧
      (∀ i, nL ≤ i → r.getD i [] = dst.getD i []) := by
  intro cols
  induction cols with
  | nil => intro off dst hs _ _; exact ⟨dst, by simp [starts, putCols], hs, fun i _ => by simp [packRow], fun _ _ => rfl⟩
  | cons c cs ih =>
    intro off dst hs hc hW
    simp only [List.map_cons, List.sum_cons] at hW ⊢
    have hsc := hc c (by simp)
    obtain ⟨r, e, sh, g1, g2⟩ := putCol_ok (off := off) (W := W) (s := colBytes c) (by omega) dst c.data.rows hs.2 hsc.2 (by rw [hsc.1, hs.1]; exact hn)
    rw [hs.1] at sh
    obtain ⟨r', e', sh', g1', g2'⟩ := ih (off + colBytes c) r sh (fun a ha => hc a (by simp [ha])) (by omega)
    rw [hsc.1] at g1 g2
    refine ⟨r', by rw [starts, putCols, e, ok_bind, e'], sh', ?_, fun i hi => by rw [g2' i hi, g2 i hi]⟩
    intro i hi
    have hdl : (dst.getD i []).length = W := shape_getD hs (by omega)
    have hcl : (c.data.rows.getD i []).length = colBytes c := shape_getD hsc hi
    rw [g1' i hi, g1 i hi]
    have ht : ((dst.getD i []).take off).length = off := by rw [List.length_take]; omega
    rw [List.take_append_of_le_length (by rw [List.length_append, ht, hcl]), List.take_of_length_le (by rw [List.length_append, ht, hcl]),
      List.drop_append, List.length_append, ht, hcl, List.drop_eq_nil_of_le (by rw [List.length_append, ht, hcl]; omega), List.drop_drop]
    simp only [packRow, List.map_cons, List.flatten_cons, List.nil_append, List.append_assoc]
    congr 4
    omega

/-- The row `concatColumns` builds. -/
def packed (q : Query) (keys : BinMatrix) (role : Nat) (i : Nat) : Row :=
  (if i < q.leftKey.data.rows.length then packRow (leftCols q.select) i ++ [if role ≠ 0 then (1 : Byte) else 0]
    else List.replicate (flagByte q.select) 0 ++ [0]) ++ keys.rows.getD i [] ++
    List.replicate (divCeil q.leftKey.info.bits 8 - keys.cols) 0

theorem concatColumns_ok {nL n : Nat} {q : Query} {keys : BinMatrix} (role : Nat) (hl : q.leftKey.data.rows.length = nL) (hn : nL ≤ n)
    (hk : Shape n keys.cols keys.rows) (hkc : keys.cols ≤ divCeil q.leftKey.info.bits 8)
    (hc : ∀ c ∈ leftCols q.select, Shape nL (colBytes c) c.data.rows) :
    concatColumns q keys role = .ok ((List.range n).map (packed q keys role)) ∧
    Shape n (dataBytes q.select q.leftKey.info.bits) ((List.range n).map (packed q keys role)) := by
  set W := dataBytes q.select q.leftKey.info.bits with hWd
  set fb := flagByte q.select with hfb
  set kb := divCeil q.leftKey.info.bits 8 with hkb
  have hW : W = fb + 1 + kb := rfl
  have hz : Shape n W (List.replicate keys.rows.length (List.replicate W (0 : Byte))) := by
    refine ⟨by rw [List.length_replicate, hk.1], fun x hx => ?_⟩
    rw [(List.mem_replicate.mp hx).2, List.length_replicate]
  have hzg : ∀ i, i < n → (List.replicate keys.rows.length (List.replicate W (0 : Byte))).getD i [] = List.replicate W 0 := by
    intro i hi
    rw [List.getD_eq_getElem?_getD, List.getElem?_replicate, if_pos (by rw [hk.1]; exact hi)]
    rfl
  have hfs : fb = ((leftCols q.select).map colBytes).sum := rfl
  obtain ⟨r1, e1, s1, a1, b1⟩ := putCols_ok (nL := nL) (n := n) (W := W) hn (leftCols q.select) 0 _ hz hc (by omega)
  obtain ⟨r2, e2, s2, a2, b2⟩ := putCol_ok (off := fb + 1) (W := W) (s := keys.cols) (by omega) r1 keys.rows s1.2 hk.2 (by rw [s1.1, hk.1])
  rw [s1.1] at s2
  rw [hk.1] at a2
  -- the row without the flag
  have hrow : ∀ i, i < n → r2.getD i [] = (if i < nL then packRow (leftCols q.select) i else List.replicate fb 0) ++ [(0 : Byte)] ++
      keys.rows.getD i [] ++ List.replicate (kb - keys.cols) 0 := by
    intro i hi
    rw [a2 i hi]
    have hr1 : r1.getD i [] = (if i < nL then packRow (leftCols q.select) i else List.replicate fb 0) ++ [(0 : Byte)] ++
        List.replicate kb 0 := by
      by_cases h : i < nL
      · rw [a1 i h, hzg i hi, if_pos h, ← hfs]
        simp only [List.take_zero, List.nil_append, Nat.zero_add, List.drop_replicate]
        rw [show W - fb = kb + 1 by omega, List.replicate_succ]
        simp
      · rw [b1 i (by omega), hzg i hi, if_neg h, show W = fb + (1 + kb) by omega, List.replicate_add, List.replicate_add]
        simp
    have hpl : ((if i < nL then packRow (leftCols q.select) i else List.replicate fb 0) ++ [(0 : Byte)]).length = fb + 1 := by
      split
      · rename_i h
        rw [List.length_append, packRow_length hc h, ← hfs]; rfl
      · simp
    rw [hr1, List.take_append_of_le_length (by omega), List.take_of_length_le (by omega), List.drop_append, hpl,
      List.drop_eq_nil_of_le (by rw [hpl]; omega), List.nil_append, List.drop_replicate]
    congr 2
    omega
  have fin : ∀ r : List Row, Shape n W r → (∀ i, i < n → r.getD i [] = packed q keys role i) → r = (List.range n).map (packed q keys role) := by
    intro r hr h
    apply List.ext_getElem (by simp [hr.1])
    intro i h1 h2
    have hi : i < n := by rw [← hr.1]; exact h1
    have := h i hi
    rw [List.getD_eq_getElem?_getD, List.getElem?_eq_getElem h1] at this
    simpa using this
  suffices h : ∃ r, concatColumns q keys role = .ok r ∧ Shape n W r ∧ ∀ i, i < n → r.getD i [] = packed q keys role i by
    obtain ⟨r, e, hs, hr⟩ := h
    rw [← fin r hs hr]
    exact ⟨e, hs⟩
  unfold concatColumns
  simp only []
  rw [e1, ok_bind, ← hfb, e2, ok_bind]
  by_cases hrole : role = 0
  · subst hrole
    rw [if_neg (by simp)]
    refine ⟨r2, rfl, s2, fun i hi => ?_⟩
    rw [hrow i hi]
    unfold packed
    rw [hl, ← hfb, ← hkb]
    by_cases h : i < nL
    · simp [h]
    · simp [h]
  · rw [if_pos hrole, hl]
    obtain ⟨r3, e3, s3, a3, b3⟩ := putCol_ok (off := fb) (W := W) (s := 1) (by omega) r2 (List.replicate nL [(1 : Byte)]) s2.2
      (fun x hx => by rw [(List.mem_replicate.mp hx).2]; rfl) (by rw [s2.1, List.length_replicate]; exact hn)
    rw [s2.1] at s3
    rw [List.length_replicate] at a3 b3
    refine ⟨r3, e3, s3, fun i hi => ?_⟩
    unfold packed
    rw [hl, ← hfb, ← hkb]
    by_cases h : i < nL
    · have hp := packRow_length hc h
      rw [← hfs] at hp
      rw [a3 i h, hrow i hi, if_pos h, if_pos h, if_pos hrole]
      have hg : (List.replicate nL [(1 : Byte)]).getD i [] = [1] := by
        rw [List.getD_eq_getElem?_getD, List.getElem?_replicate, if_pos h]; rfl
      rw [hg]
      simp only [List.append_assoc]
      rw [List.take_append_of_le_length (by omega), List.take_of_length_le (by omega), List.drop_append, hp,
        List.drop_eq_nil_of_le (by omega)]
      simp
    · rw [b3 i (by omega), hrow i hi, if_neg h, if_neg h]

/-! ## The protocol -/

theorem validateCorNet_ok {n W off : Nat} {s : PermCorSender} {r : PermCorReceiver} (h : CorInv n W off s r) :
    validateCorNet s r = .ok () := by
  have hv : s.perm.validate = .ok () := by
    rcases Perm.validate_iff s.perm with ⟨h1, _⟩ | ⟨_, h2⟩
    · exact h1
    · exact absurd h.perm h2
  have hc : r.cols = s.cols := by have := h.scols; have := h.rcols; omega
  unfold validateCorNet
  rw [hv, ok_bind, h.a.1, h.b.1, h.delta.1, hc]
  simp only [bne_self_eq_false, Bool.or_self, throwIf_false, ok_bind]
  exact (validateCor_iff h.perm h.len h.delta h.a h.b).1.mpr h.cor

/-- What `loadKeys` needs and gives. -/
theorem loadKeys_ok {cs : Nat} {enc : Row → Row} {l r : Column} {k : BinMatrix} : loadKeys cs enc l r = .ok k ↔
    l.info.bits = r.info.bits ∧ 0 < l.data.rows.length ∧ 0 < r.data.rows.length ∧
    k = if l.info.bits ≤ cs then ⟨l.info.bits, divCeil l.info.bits 8, l.data.rows ++ r.data.rows⟩
      else ⟨cs, divCeil cs 8, l.data.rows.map enc ++ r.data.rows.map enc⟩ := by
  unfold loadKeys
  by_cases h1 : l.info.bits = r.info.bits
  · simp only [h1, bne_self_eq_false, throwIf_false, ok_bind, true_and]
    by_cases h2 : l.data.rows.length = 0 ∨ r.data.rows.length = 0
    · rw [if_pos h2]
      refine ⟨(fun h => by cases h), fun h => by omega⟩
    · rw [if_neg h2]
      by_cases h3 : r.info.bits ≤ cs
      · simp only [if_pos h3]
        exact ⟨fun h => ⟨by omega, by omega, by injection h with h; exact h.symm⟩, fun h => by rw [h.2.2]⟩
      · simp only [if_neg h3]
        exact ⟨fun h => ⟨by omega, by omega, by injection h with h; exact h.symm⟩, fun h => by rw [h.2.2]⟩
  · rw [show (l.info.bits != r.info.bits) = true by simp [h1], throwIf_true]
    exact ⟨(fun h => by cases h), fun h => absurd h.1 h1⟩

/-- What both parties' queries have in common: row counts, widths and origins of the columns. -/
structure SameQuery (nL nR : Nat) (q0 q1 : Query) : Prop where
  l0 : Shape nL (colBytes q0.leftKey) q0.leftKey.data.rows
  l1 : Shape nL (colBytes q0.leftKey) q1.leftKey.data.rows
  r0 : Shape nR (colBytes q0.leftKey) q0.rightKey.data.rows
  r1 : Shape nR (colBytes q0.leftKey) q1.rightKey.data.rows
  lb : q1.leftKey.info.bits = q0.leftKey.info.bits
  rb0 : q0.rightKey.info.bits = q0.leftKey.info.bits
  rb1 : q1.rightKey.info.bits = q0.leftKey.info.bits
  sel : List.Forall₂ (fun a b => a.1 = b.1 ∧ b.2.info.bits = a.2.info.bits ∧
    Shape (if a.1 then nL else nR) (colBytes a.2) a.2.data.rows ∧
    Shape (if a.1 then nL else nR) (colBytes a.2) b.2.data.rows) q0.select q1.select

theorem leftCols_cons (b : Bool) (c : Column) (s : List (Bool × Column)) :
    leftCols ((b, c) :: s) = if b then c :: leftCols s else leftCols s := by
  cases b <;> simp [leftCols]

section
variable {nL nR : Nat}

theorem sel_left {s0 s1 : List (Bool × Column)} (h : List.Forall₂ (fun a b => a.1 = b.1 ∧ b.2.info.bits = a.2.info.bits ∧
    Shape (if a.1 then nL else nR) (colBytes a.2) a.2.data.rows ∧
    Shape (if a.1 then nL else nR) (colBytes a.2) b.2.data.rows) s0 s1) :
    List.Forall₂ (fun a b => colBytes b = colBytes a ∧ Shape nL (colBytes a) a.data.rows ∧ Shape nL (colBytes a) b.data.rows)
      (leftCols s0) (leftCols s1) := by
  induction h with
  | nil => exact List.Forall₂.nil
  | cons hab _ ih =>
    rename_i x y _ _ _
    obtain ⟨a1, a2⟩ := x
    obtain ⟨b1, b2⟩ := y
    obtain ⟨h1, h2, h3, h4⟩ := hab
    simp only at h1 h2 h3 h4
    subst h1
    rw [leftCols_cons, leftCols_cons]
    cases a1 with
    | false => exact ih
    | true => exact List.Forall₂.cons ⟨by unfold colBytes; rw [h2], h3, h4⟩ ih

theorem sel_sum {c0 c1 : List Column} (h : List.Forall₂ (fun a b => colBytes b = colBytes a ∧ Shape nL (colBytes a) a.data.rows ∧
    Shape nL (colBytes a) b.data.rows) c0 c1) : (c1.map colBytes).sum = (c0.map colBytes).sum ∧
    (∀ c ∈ c0, Shape nL (colBytes c) c.data.rows) ∧ (∀ c ∈ c1, Shape nL (colBytes c) c.data.rows) := by
  induction h with
  | nil => simp
  | cons hab _ ih =>
    obtain ⟨h1, h2, h3⟩ := hab
    obtain ⟨i1, i2, i3⟩ := ih
    refine ⟨by simp [i1, h1], ?_, ?_⟩
    · intro c hc
      rcases List.mem_cons.mp hc with rfl | hc
      · exact h2
      · exact i2 c hc
    · intro c hc
      rcases List.mem_cons.mp hc with rfl | hc
      · rw [h1]; exact h3
      · exact i3 c hc

/-- The first `take` bytes of a row of the sorted data: the left columns, both parties together. -/
def leftPart (q0 q1 : Query) (i : Nat) : Row :=
  if i < q0.leftKey.data.rows.length then xorRow (packRow (leftCols q0.select) i) (packRow (leftCols q1.select) i)
  else List.replicate (flagByte q0.select) 0

theorem xorRow_append {a b c d : Row} (h : a.length = b.length) : xorRow (a ++ c) (b ++ d) = xorRow a b ++ xorRow c d := by
  unfold xorRow; exact List.zipWith_append h

theorem xorRow_zeros (k : Nat) : xorRow (List.replicate k 0) (List.replicate k 0) = List.replicate k 0 := by
  simp [xorRow]

/-- A row of the data to sort, both parties together. -/
theorem packed_xor {n : Nat} {q0 q1 : Query} {k0 k1 : BinMatrix} (hq : SameQuery nL nR q0 q1) (hk0 : Shape n k0.cols k0.rows)
    (hk1 : Shape n k0.cols k1.rows) (hc : k1.cols = k0.cols) {i : Nat} (hi : i < n) :
    xorRow (packed q0 k0 0 i) (packed q1 k1 1 i) = leftPart q0 q1 i ++ [if i < nL then 1 else 0] ++
      xorRow (k0.rows.getD i []) (k1.rows.getD i []) ++ List.replicate (divCeil q0.leftKey.info.bits 8 - k0.cols) 0 := by
  obtain ⟨e1, e2, e3⟩ := sel_sum (sel_left hq.sel)
  unfold packed leftPart
  rw [hq.l0.1, hq.l1.1, hq.lb, hc]
  have hkl : (k0.rows.getD i []).length = (k1.rows.getD i []).length := by rw [shape_getD hk0 hi, shape_getD hk1 hi]
  by_cases h : i < nL
  · have hp : (packRow (leftCols q0.select) i).length = (packRow (leftCols q1.select) i).length := by
      rw [packRow_length e2 h, packRow_length e3 h, e1]
    simp only [if_pos h, ne_eq, not_true_eq_false, if_false, one_ne_zero, not_false_eq_true, if_true]
    rw [xorRow_append (by simp only [List.length_append, hp, hkl]; rfl), xorRow_append (by simp [hp]), xorRow_append hp, xorRow_zeros]
    rfl
  · have hf : flagByte q1.select = flagByte q0.select := e1
    simp only [if_neg h, hf]
    rw [xorRow_append (by simp only [List.length_append, hkl]), xorRow_append (by simp), xorRow_append (by simp), xorRow_zeros, xorRow_zeros]
    rfl

theorem leftPart_length {q0 q1 : Query} (hq : SameQuery nL nR q0 q1) (i : Nat) :
    (leftPart q0 q1 i).length = flagByte q0.select := by
  obtain ⟨e1, e2, e3⟩ := sel_sum (sel_left hq.sel)
  unfold leftPart
  split
  · rename_i h
    rw [hq.l0.1] at h
    rw [xorRow_length (by rw [packRow_length e2 h, packRow_length e3 h, e1]), packRow_length e2 h]
    rfl
  · simp

theorem shareRows_ok {n c : Nat} (m : Nat → Row) {v : List Row} (hv : Shape n c v) :
    Shape n c (shareRows c m v).1 ∧ Shape n c (shareRows c m v).2 ∧ xm (shareRows c m v).1 (shareRows c m v).2 = v := by
  have ha : Shape n c (shareRows c m v).1 := by
    refine ⟨by simp [shareRows, hv.1], ?_⟩
    intro r hr
    simp only [shareRows, List.mem_map] at hr
    obtain ⟨i, _, rfl⟩ := hr
    simp
  have hb : (shareRows c m v).2 = xm (shareRows c m v).1 v := rfl
  refine ⟨ha, by rw [hb]; exact xm_shape ha hv, ?_⟩
  rw [hb, xm_cancel ha hv]

theorem setFlag_ok {n c off : Nat} {a : List Row} (ha : Shape n c a) (ho : off ≤ c) (f : Nat → Bool) :
    Shape n (off + 1) (setFlag off a f) ∧
    ∀ i, i < n → (setFlag off a f).getD i [] = (a.getD i []).take off ++ [if f i then 1 else 0] := by
  constructor
  · refine ⟨by simp [setFlag, ha.1], ?_⟩
    intro r hr
    simp only [setFlag, List.mem_map, List.mem_range, ha.1] at hr
    obtain ⟨i, hi, rfl⟩ := hr
    have := shape_getD ha hi
    simp only [List.length_append, List.length_take, List.length_cons, List.length_nil]
    omega
  · intro i hi
    rw [← ha.1] at hi
    simp [setFlag, List.getD_eq_getElem?_getD, hi]

theorem xorRow_take (k : Nat) (a b : Row) : xorRow (a.take k) (b.take k) = (xorRow a b).take k := by
  unfold xorRow; rw [List.take_zipWith]

/-- The control bit of sorted position `j`. -/
def ctrlAt (n off bits : Nat) (rows : List Row) (j : Nat) : Bool :=
  if j < n ∧ j ≠ 0 then ctrlBit bits (keyBit off (rows.getD (j - 1) [])) (keyBit off (rows.getD j [])) else false

open Radix (rank rank_lt rank_inj rankList_perm Ranked rank_lt_rank rank_lt_iff)

/-- The join after the sort: row `i` of the result is what the duplication left at the sorted position of row `i`. -/
theorem joinSorted_ok {n W0 o0 W1 o1 : Nat} {q0 q1 : Query} {k0 k1 : BinMatrix} (hq : SameQuery nL nR q0 q1) (hn : n = nL + nR)
    (h2 : 2 ≤ n) (hk0 : Shape n k0.cols k0.rows) (hk1 : Shape n k0.cols k1.rows) (hc : k1.cols = k0.cols)
    (hkc : k0.cols ≤ divCeil q0.leftKey.info.bits 8) {sk : Nat → Nat} {s0 s1 : List (BitVec 32)} (hs : Ranked n sk s0 s1)
    {p0 p1 : ComposedPerm} (hp : CompInv n W0 o0 W1 o1 p0 p1)
    (hw0 : o0 + dataBytes q0.select q0.leftKey.info.bits + (flagByte q0.select + 1) ≤ W0)
    (hw1 : o1 + 4 + dataBytes q0.select q0.leftKey.info.bits + (flagByte q0.select + 1) ≤ W1) (r : Rnd) :
    ∃ rows v0 v1, rows.length = n ∧
      (∀ i, i < n → rows.getD (rank n sk i) [] = xorRow (packed q0 k0 0 i) (packed q1 k1 1 i)) ∧
      Shape n (flagByte q0.select + 1) v0 ∧ Shape n (flagByte q0.select + 1) v1 ∧
      (∀ i, i < n → xorRow (v0.getD i []) (v1.getD i []) =
        (Agg.aggP dup (fun j => rows.getD j []) (ctrlAt n (flagByte q0.select + 1) k0.bits rows) 0 (rank n sk i)).take (flagByte q0.select) ++
        [if ctrlAt n (flagByte q0.select + 1) k0.bits rows (rank n sk i) &&
          ((Agg.aggP dup (fun j => rows.getD j []) (ctrlAt n (flagByte q0.select + 1) k0.bits rows) 0 (rank n sk i)).getD
            (flagByte q0.select) 0).getLsbD 0 then 1 else 0]) ∧
      joinSorted q0 q1 k0 k1 s0 s1 p0 p1 r = (do
        let o0 ← getOutput q0 v0
        let o1 ← getOutput q1 v1
        .ok (o0, o1)) := by
  obtain ⟨e1, e2, e3⟩ := sel_sum (sel_left hq.sel)
  set fb := flagByte q0.select with hfb
  set w := dataBytes q0.select q0.leftKey.info.bits with hw
  have hwf : fb + 1 ≤ w := by rw [hw, hfb]; unfold dataBytes; omega
  obtain ⟨c0, d0⟩ := concatColumns_ok (n := n) 0 hq.l0.1 (by omega) hk0 hkc e2
  obtain ⟨c1, d1⟩ := concatColumns_ok (q := q1) (keys := k1) (n := n) 1 hq.l1.1 (by omega) (by rw [hc]; exact hk1)
    (by rw [hc, hq.lb]; exact hkc) e3
  have hw' : dataBytes q1.select q1.leftKey.info.bits = w := by
    rw [hw]; unfold dataBytes flagByte; rw [e1, hq.lb]
  rw [hw'] at d1
  rw [← hw] at d0
  have hRp := rankList_perm n sk
  have hRl : ((List.range n).map (rank n sk)).length = n := by simp
  have hRlt : ∀ x ∈ (List.range n).map (rank n sk), x < n := by
    intro x hx; have := hRp.1 x hx; rwa [hRl] at this
  obtain ⟨p0', p1', ed, hi, hg⟩ := composed_derandomize_ok hp (by omega) hs.1 hs.2.1 (by rw [hs.list]; exact hRp) (by omega)
  rw [hs.list] at hg
  obtain ⟨p0a, p1a, t0, t1, ea, hia, q0a, q1a, st0, st1, hx⟩ := composed_applyBoth_ok hi (by omega) (op := .inverse)
    (x0 := ⟨w, (List.range n).map (packed q0 k0 0)⟩) (x1 := ⟨w, (List.range n).map (packed q1 k1 1)⟩) d0 d1 rfl
    (by show o0 + w ≤ W0; omega) (by show o1 + 4 + w ≤ W1; omega)
  rw [hg] at hx
  simp only at hx st0 st1 hia ea
  set rows := xm t0 t1 with hrows
  have hrs : Shape n w rows := xm_shape st0 st1
  have hgr : gather ((List.range n).map (rank n sk)) rows =
      xm ((List.range n).map (packed q0 k0 0)) ((List.range n).map (packed q1 k1 1)) := by
    rw [hx]
    exact (gather_cancel hRp (by rw [(xm_shape d0 d1).1, hRl])).2
  have hrow : ∀ i, i < n → rows.getD (rank n sk i) [] = xorRow (packed q0 k0 0 i) (packed q1 k1 1 i) := by
    intro i hi'
    have := congrArg (fun l : List Row => l[i]?) hgr
    beta_reduce at this
    rw [gather_getElem? (by rw [hrs.1]; exact hRlt)] at this
    simp only [List.getElem?_map, List.getElem?_range hi', Option.map_some, Option.bind_some, xm, List.getElem?_zipWith] at this
    rw [List.getD_eq_getElem?_getD, this]
    rfl
  -- control bits
  have hcb : controlBits (fb + 1) k0.bits rows = .ok ((List.range n).map fun i =>
      if i = 0 then false else ctrlBit k0.bits (keyBit (fb + 1) (rows.getD (i - 1) [])) (keyBit (fb + 1) (rows.getD i []))) := by
    unfold controlBits
    rw [hrs.1, if_neg (by omega)]
  set cb := (List.range n).map fun i =>
      if i = 0 then false else ctrlBit k0.bits (keyBit (fb + 1) (rows.getD (i - 1) [])) (keyBit (fb + 1) (rows.getD i [])) with hcbd
  have hcbl : cb.length = n := by simp [hcbd]
  have hcbg : ∀ j, j < n → cb.getD j false = ctrlAt n (fb + 1) k0.bits rows j := by
    intro j hj
    unfold ctrlAt
    rw [hcbd, List.getD_eq_getElem?_getD, List.getElem?_map, List.getElem?_range hj]
    by_cases h : j = 0
    · simp [h]
    · simp [h, hj]
  have hbP : Agg.bP cb n = ctrlAt n (fb + 1) k0.bits rows := by
    funext j
    unfold Agg.bP
    by_cases h : j < n ∧ j ≠ 0
    · rw [if_pos h, hcbg j h.1]
    · rw [if_neg h]; unfold ctrlAt; rw [if_neg h]
  obtain ⟨dupd, eg, gl, gg⟩ := Agg.aggTree_get (op := dup) (fun _ _ _ => rfl) (List.replicate w 0) .pre (xs := rows) (c := cb)
    (by rw [hrs.1]; exact h2) (by rw [hcbl, hrs.1]) (by
      rw [hcbd, List.getElem?_map, List.getElem?_range (by omega)]; rfl)
  rw [hrs.1] at gl gg
  have haggP : ∀ j, j < n → Agg.aggP dup (fun i => rows.getD i (List.replicate w 0)) (Agg.bP cb n) 0 j =
      Agg.aggP dup (fun i => rows.getD i []) (ctrlAt n (fb + 1) k0.bits rows) 0 j := by
    intro j
    rw [hbP]
    have hd : ∀ j, j < n → rows.getD j (List.replicate w 0) = rows.getD j [] := by
      intro j hj
      rw [← hrs.1] at hj
      simp [List.getD_eq_getElem?_getD, hj]
    induction j with
    | zero => intro h; simp only [Agg.aggP]; exact hd 0 h
    | succ j ih =>
      intro h
      simp only [Agg.aggP]
      rw [ih (by omega), hd _ (by omega)]
  have hdg : ∀ j, j < n → dupd.getD j [] = Agg.aggP dup (fun i => rows.getD i []) (ctrlAt n (fb + 1) k0.bits rows) 0 j := by
    intro j hj
    rw [List.getD_eq_getElem?_getD, gg j hj]
    simp only [Agg.pick, Option.getD_some]
    exact haggP j hj
  have hdw : ∀ j, j < n → (Agg.aggP dup (fun i => rows.getD i []) (ctrlAt n (fb + 1) k0.bits rows) 0 j).length = w := by
    intro j
    induction j with
    | zero => intro h; simp only [Agg.aggP]; exact shape_getD hrs h
    | succ j ih =>
      intro h
      simp only [Agg.aggP]
      split
      · exact ih (by omega)
      · exact shape_getD hrs (by omega)
  have hds : Shape n w dupd := by
    refine ⟨gl, fun x hx => ?_⟩
    obtain ⟨j, hj, rfl⟩ := List.mem_iff_getElem.mp hx
    have := hdg j (by omega)
    rw [List.getD_eq_getElem?_getD, List.getElem?_eq_getElem hj] at this
    simp only [Option.getD_some] at this
    rw [this]
    exact hdw j (by omega)
  obtain ⟨sa0, sa1, sx⟩ := shareRows_ok r.agg hds
  set new := (List.range n).map fun i => cb.getD i false && ((dupd.getD i []).getD fb 0).getLsbD 0 with hnew
  obtain ⟨su0, gu0⟩ := setFlag_ok (off := fb) sa0 (by omega) r.flag
  obtain ⟨su1, gu1⟩ := setFlag_ok (off := fb) sa1 (by omega) (fun i => r.flag i ^^ new.getD i false)
  obtain ⟨p0b, p1b, v0, v1, eb, -, -, -, sv0, sv1, hv⟩ := composed_applyBoth_ok hia (by omega) (op := .regular)
    (x0 := ⟨fb + 1, setFlag fb (shareRows w r.agg dupd).1 r.flag⟩)
    (x1 := ⟨fb + 1, setFlag fb (shareRows w r.agg dupd).2 fun i => r.flag i ^^ new.getD i false⟩) su0 su1 rfl
    (by show o0 + w + (fb + 1) ≤ W0; omega) (by show o1 + 4 + w + (fb + 1) ≤ W1; omega)
  rw [q0a, q1a, hg] at hv
  simp only at sv0 sv1 hv eb
  refine ⟨rows, v0, v1, hrs.1, hrow, sv0, sv1, ?_, ?_⟩
  · intro i hi'
    have hlt : rank n sk i < n := rank_lt sk hi'
    rw [← xm_getD sv0 sv1 hi']
    have hvi : (xm v0 v1).getD i [] = (xm (setFlag fb (shareRows w r.agg dupd).1 r.flag)
        (setFlag fb (shareRows w r.agg dupd).2 fun i => r.flag i ^^ new.getD i false)).getD (rank n sk i) [] := by
      rw [hv, permRows, List.getD_eq_getElem?_getD, gather_getElem? (by rw [(xm_shape su0 su1).1]; exact hRlt)]
      simp only [List.getElem?_map, List.getElem?_range hi', Option.map_some, Option.bind_some]
      rw [List.getD_eq_getElem?_getD]
    have hl : ((shareRows w r.agg dupd).1.getD (rank n sk i) []).length = ((shareRows w r.agg dupd).2.getD (rank n sk i) []).length := by
      rw [shape_getD sa0 hlt, shape_getD sa1 hlt]
    show (xm v0 v1).getD i [] = _
    rw [hvi, xm, xm_getD su0 su1 hlt, gu0 _ hlt, gu1 _ hlt, xorRow_append (by simp only [List.length_take, hl]), xorRow_take,
      ← xm_getD sa0 sa1 hlt]
    have hsx : List.zipWith xorRow (shareRows w r.agg dupd).1 (shareRows w r.agg dupd).2 = dupd := sx
    rw [hsx, hdg _ hlt]
    congr 1
    have hnj : new.getD (rank n sk i) false = (ctrlAt n (fb + 1) k0.bits rows (rank n sk i) &&
        ((Agg.aggP dup (fun i => rows.getD i []) (ctrlAt n (fb + 1) k0.bits rows) 0 (rank n sk i)).getD fb 0).getLsbD 0) := by
      rw [hnew, List.getD_eq_getElem?_getD, List.getElem?_map, List.getElem?_range hlt]
      simp only [Option.map_some, Option.getD_some]
      rw [hcbg _ hlt, hdg _ hlt]
    rw [hnj]
    generalize (ctrlAt n (fb + 1) k0.bits rows (rank n sk i) &&
        ((Agg.aggP dup (fun i => rows.getD i []) (ctrlAt n (fb + 1) k0.bits rows) 0 (rank n sk i)).getD fb 0).getLsbD 0) = b
    cases r.flag (rank n sk i) <;> cases b <;> rfl
  · unfold joinSorted
    simp only []
    rw [c0, ok_bind, c1, ok_bind, validateCorNet_ok hp.cor0, ok_bind, validateCorNet_ok hp.cor1, ok_bind, ed, ok_bind]
    simp only []
    rw [← hw, ← hfb, ea, ok_bind]
    simp only []
    rw [show List.zipWith xorRow t0 t1 = rows from rfl, hcb, ok_bind, eg, ok_bind, hrs.1]
    rw [← hnew, eb, ok_bind]

/-! ## What the duplication does -/

theorem rank_surj {n : Nat} (sk : Nat → Nat) {j : Nat} (hj : j < n) : ∃ a, a < n ∧ rank n sk a = j := by
  have : j ∈ (Finset.range n).image (rank n sk) := by rw [Radix.rank_image]; exact Finset.mem_range.mpr hj
  obtain ⟨a, ha, rfl⟩ := Finset.mem_image.mp this
  exact ⟨a, Finset.mem_range.mp ha, rfl⟩

/-- `m` is the first row with the key of row `i`. -/
def FirstOf (n : Nat) (sk : Nat → Nat) (i m : Nat) : Prop := m < n ∧ sk m = sk i ∧ ∀ m', m' < n → sk m' = sk i → m ≤ m'

/-- In rows sorted by key, with control bits saying whether a key equals its predecessor, the duplication copies the first
row of every key to all rows of the key. -/
theorem dup_first {n : Nat} {sk : Nat → Nat} {x D : Nat → Row} {c : Nat → Bool} (h0 : c 0 = false)
    (hx : ∀ i, i < n → x (rank n sk i) = D i)
    (hc : ∀ a, a < n → ∀ b, b < n → rank n sk b = rank n sk a + 1 → (c (rank n sk b) = true ↔ sk a = sk b)) :
    ∀ j i, i < n → rank n sk i = j → ∃ m, FirstOf n sk i m ∧ Agg.aggP dup x c 0 j = D m ∧ (c j = true ↔ m ≠ i) := by
  intro j
  induction j with
  | zero =>
    intro i hi hr
    refine ⟨i, ⟨hi, rfl, fun m' hm' hs => ?_⟩, ?_, ?_⟩
    · by_contra hlt
      have := rank_lt_rank sk hm' (show KeyOrder sk m' i by unfold KeyOrder; omega)
      omega
    · simp only [Agg.aggP]
      have := hx i hi
      rwa [hr] at this
    · simp [h0]
  | succ j ih =>
    intro i hi hr
    obtain ⟨p, hp, hpr⟩ := rank_surj sk (show j < n by have := rank_lt sk hi; omega)
    obtain ⟨m, hm, ha, -⟩ := ih p hp hpr
    have hcj := hc p hp i hi (by omega)
    rw [hr] at hcj
    have hxi := hx i hi
    rw [hr] at hxi
    have hord : KeyOrder sk p i := (rank_lt_iff sk hp hi).mp (by omega)
    simp only [Agg.aggP, Nat.zero_add]
    by_cases h : c (j + 1) = true
    · have he := hcj.mp h
      rw [if_pos h]
      refine ⟨m, ⟨hm.1, by rw [hm.2.1, he], fun m' h1 h2 => hm.2.2 m' h1 (by rw [he]; exact h2)⟩, ha, ?_⟩
      have h1 := hm.2.2 p hp rfl
      have h2 : p < i := by unfold KeyOrder at hord; omega
      simp [h]; omega
    · rw [if_neg h]
      have hne : sk p ≠ sk i := fun he => h (hcj.mpr he)
      have hlt : sk p < sk i := by unfold KeyOrder at hord; omega
      refine ⟨i, ⟨hi, rfl, fun m' h1 h2 => ?_⟩, hxi, by simp [h]⟩
      by_contra hcon
      have r1 := rank_lt_rank sk h1 (show KeyOrder sk m' i by unfold KeyOrder; omega)
      have r2 := rank_lt_rank sk hp (show KeyOrder sk p m' by unfold KeyOrder; omega)
      omega

/-! ## The output -/

/-- Where the left column at place `k` of the select list starts. -/
def startOf (s : List (Bool × Column)) (k : Nat) : Nat := ((leftCols (s.take k)).map colBytes).sum

theorem leftCols_append (a b : List (Bool × Column)) : leftCols (a ++ b) = leftCols a ++ leftCols b := by
  simp [leftCols]

theorem startOf_le {s : List (Bool × Column)} {k : Nat} {c : Column} (h : s[k]? = some (true, c)) :
    startOf s k + colBytes c ≤ flagByte s := by
  obtain ⟨hk, he⟩ := List.getElem?_eq_some_iff.mp h
  have hs : s = s.take k ++ (true, c) :: s.drop (k + 1) := by
    conv => lhs; rw [← List.take_append_drop k s, List.drop_eq_getElem_cons hk, he]
  unfold startOf flagByte
  conv => rhs; rw [hs]
  rw [leftCols_append, leftCols_cons]
  simp

theorem packRow_slice {n : Nat} {s : List (Bool × Column)} (hs : ∀ c ∈ leftCols s, Shape n (colBytes c) c.data.rows) {k : Nat}
    {c : Column} (h : s[k]? = some (true, c)) {i : Nat} (hi : i < n) :
    ((packRow (leftCols s) i).drop (startOf s k)).take (colBytes c) = c.data.rows.getD i [] := by
  obtain ⟨hk, he⟩ := List.getElem?_eq_some_iff.mp h
  have hsp : s = s.take k ++ (true, c) :: s.drop (k + 1) := by
    conv => lhs; rw [← List.take_append_drop k s, List.drop_eq_getElem_cons hk, he]
  have hl : leftCols s = leftCols (s.take k) ++ c :: leftCols (s.drop (k + 1)) := by
    conv => lhs; rw [hsp]
    rw [leftCols_append, leftCols_cons]
    rfl
  have hp : packRow (leftCols s) i = packRow (leftCols (s.take k)) i ++ (c.data.rows.getD i [] ++ packRow (leftCols (s.drop (k + 1))) i) := by
    rw [hl]; simp [packRow]
  have h1 : (packRow (leftCols (s.take k)) i).length = startOf s k :=
    packRow_length (fun c hc => hs c (by rw [hl]; simp [hc])) hi
  have h2 : (c.data.rows.getD i []).length = colBytes c := shape_getD (hs c (by rw [hl]; simp)) hi
  rw [hp, ← h1, List.drop_left, ← h2, List.take_left]

theorem slice_ok {off size : Nat} {r : Row} (h : off + size ≤ r.length) : slice off size r = .ok ((r.drop off).take size) := by
  unfold slice; rw [if_pos h]

theorem outCols_ok {n W : Nat} {data : List Row} (hd : Shape n W data) : ∀ (s : List (Bool × Column)) (off : Nat),
    off + flagByte s ≤ W → ∃ cols : List Column, outCols data off s = .ok cols ∧ cols.length = s.length ∧
      ∀ k : Nat, (∀ c, s[k]? = some (true, c) → cols[k]? = some ⟨c.info, ⟨c.info.bits, colBytes c,
          data.map fun r => (r.drop (off + startOf s k)).take (colBytes c)⟩⟩) ∧
        (∀ c, s[k]? = some (false, c) → cols[k]? = some c) := by
  intro s
  induction s with
  | nil => intro off _; exact ⟨[], rfl, rfl, fun k => by simp⟩
  | cons a s ih =>
    intro off hW
    obtain ⟨b, c⟩ := a
    cases b with
    | false =>
      obtain ⟨cols, e, l, g⟩ := ih off (by simpa [flagByte, leftCols_cons] using hW)
      refine ⟨c :: cols, by rw [outCols, e, ok_bind], by simp [l], fun k => ?_⟩
      cases k with
      | zero => simp
      | succ k =>
        have := g k
        simpa [startOf, leftCols_cons] using this
    | true =>
      have hW' : off + colBytes c + flagByte s ≤ W := by
        simp only [flagByte, leftCols_cons, if_true, List.map_cons, List.sum_cons] at hW ⊢
        omega
      obtain ⟨cols, e, l, g⟩ := ih (off + colBytes c) hW'
      refine ⟨⟨c.info, ⟨c.info.bits, colBytes c, data.map fun r => (r.drop off).take (colBytes c)⟩⟩ :: cols, ?_, by simp [l], fun k => ?_⟩
      · rw [outCols, mapRes_ok (g := fun r => (r.drop off).take (colBytes c)) (fun x hx => slice_ok (by rw [hd.2 x hx]; omega)), ok_bind,
          e, ok_bind]
      · cases k with
        | zero => simp [startOf, leftCols]
        | succ k =>
          have := g k
          simpa [startOf, leftCols_cons, Nat.add_assoc] using this

theorem getOutput_ok {nL nR : Nat} {q : Query} {data : List Row} (hl : q.leftKey.data.rows.length = nL)
    (hd : Shape (nL + nR) (flagByte q.select + 1) data) :
    ∃ t, getOutput q data = .ok t ∧ t.isActive.length = nR ∧ t.cols.length = q.select.length ∧
      (∀ r, r < nR → t.isActive.getD r 0 = (data.getD (nL + r) []).getD (flagByte q.select) 0) ∧
      ∀ k : Nat, (∀ c, q.select[k]? = some (true, c) → ∃ o, t.cols[k]? = some o ∧ o.info = c.info ∧ o.data.bits = c.info.bits ∧
          o.data.rows.length = nR ∧
          ∀ r, r < nR → o.data.rows.getD r [] = ((data.getD (nL + r) []).drop (startOf q.select k)).take (colBytes c)) ∧
        (∀ c, q.select[k]? = some (false, c) → t.cols[k]? = some c) := by
  have hr : Shape nR (flagByte q.select + 1) (data.drop nL) :=
    ⟨by rw [List.length_drop, hd.1]; omega, fun x hx => hd.2 x (List.mem_of_mem_drop hx)⟩
  have hg : ∀ r, (data.drop nL).getD r [] = data.getD (nL + r) [] := by
    intro r; simp [List.getD_eq_getElem?_getD]
  obtain ⟨cols, e, l, g⟩ := outCols_ok hr q.select 0 (by omega)
  have hact : mapRes (fun r => rd r (flagByte q.select)) (data.drop nL) = .ok ((data.drop nL).map fun r => r.getD (flagByte q.select) 0) := by
    apply mapRes_ok
    intro x hx
    have := hr.2 x hx
    rw [rd_ok (by omega)]
    simp [List.getD_eq_getElem?_getD, show flagByte q.select < x.length by omega]
  refine ⟨⟨(data.drop nL).map fun r => r.getD (flagByte q.select) 0, cols⟩, ?_, ?_, l, ?_, ?_⟩
  · unfold getOutput
    rw [hl]
    simp only []
    rw [e, ok_bind, hact, ok_bind]
  · rw [List.length_map]; exact hr.1
  · intro r h
    rw [← hg, ← hr.1] at *
    simp only [List.getD_eq_getElem?_getD, List.getElem?_map, List.getElem?_eq_getElem h, Option.map_some, Option.getD_some]
  · intro k
    refine ⟨fun c hc => ⟨_, (g k).1 c hc, rfl, rfl, by simp only [List.length_map]; exact hr.1, ?_⟩, (g k).2⟩
    intro r h
    rw [← hg]
    rw [← hr.1] at h
    simp only [List.getD_eq_getElem?_getD, List.getElem?_map, List.getElem?_eq_getElem h, Option.map_some, Option.getD_some, Nat.zero_add]

end

end OmJoin
end SecJoin
