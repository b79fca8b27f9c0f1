import Verif.Join.OmProps
import Verif.TableOps.GroupBy
/-!
# Lemmas about the group-by
-/
namespace SecJoin
namespace GroupBy

open OmJoin
open Table (bytesNat)

/-! ## Adders -/

theorem addAt_assoc : ∀ (ss : List Nat) (a b c : Nat), addAt ss (addAt ss a b) c = addAt ss a (addAt ss b c) := by
  intro ss
  induction ss with
  | nil => intros; rfl
  | cons s ss ih =>
    intro a b c
    have hp : 0 < 2 ^ s := Nat.two_pow_pos s
    have hm : ∀ x y, (x % 2 ^ s + 2 ^ s * y) % 2 ^ s = x % 2 ^ s := by
      intro x y; rw [Nat.add_mul_mod_self_left, Nat.mod_mod]
    have hd : ∀ x y, (x % 2 ^ s + 2 ^ s * y) / 2 ^ s = y := by
      intro x y
      rw [Nat.add_mul_div_left _ _ hp, Nat.div_eq_of_lt (Nat.mod_lt _ hp), Nat.zero_add]
    simp only [addAt]
    rw [hm, hm, hd, hd, ih]
    congr 1
    rw [Nat.mod_add_mod, Nat.add_mod_mod, Nat.add_assoc, Nat.add_mod_mod, ← Nat.add_assoc, ← Nat.add_assoc, Nat.add_mod_mod]

/-- The bits of one adder. -/
def chunk (ss : List Nat) (j v : Nat) : Nat := v / 2 ^ (ss.take j).sum % 2 ^ ss.getD j 0

theorem chunk_addAt : ∀ (ss : List Nat) (j a b : Nat), j < ss.length →
    chunk ss j (addAt ss a b) = (chunk ss j a + chunk ss j b) % 2 ^ ss.getD j 0 := by
  intro ss
  induction ss with
  | nil => intro j a b h; simp at h
  | cons s ss ih =>
    intro j a b h
    have hp : 0 < 2 ^ s := Nat.two_pow_pos s
    cases j with
    | zero =>
      simp only [chunk, addAt, List.take_zero, List.sum_nil, Nat.pow_zero, Nat.div_one, List.getD_cons_zero]
      rw [Nat.add_mul_mod_self_left, Nat.mod_mod]
    | succ j =>
      have := ih j (a / 2 ^ s) (b / 2 ^ s) (by simpa using h)
      simp only [chunk, addAt, List.take_succ_cons, List.sum_cons, List.getD_cons_succ, Nat.pow_add] at this ⊢
      rw [← Nat.div_div_eq_div_mul, ← Nat.div_div_eq_div_mul, ← Nat.div_div_eq_div_mul, Nat.add_mul_div_left _ _ hp,
        Nat.div_eq_of_lt (Nat.mod_lt _ hp), Nat.zero_add]
      exact this

theorem chunk_lt (ss : List Nat) (j v : Nat) : chunk ss j v < 2 ^ ss.getD j 0 := Nat.mod_lt _ (Nat.two_pow_pos _)

/-! ## Bytes of numbers -/

theorem bytesNat_append : ∀ (a b : Row), bytesNat (a ++ b) = bytesNat a + 256 ^ a.length * bytesNat b := by
  intro a
  induction a with
  | nil => intro b; simp [bytesNat]
  | cons x a ih =>
    intro b
    simp only [List.cons_append, bytesNat, ih, List.length_cons, Nat.pow_succ]
    rw [Nat.mul_add, ← Nat.mul_assoc, Nat.mul_comm 256 (256 ^ a.length), Nat.add_assoc]

theorem bytesNat_slice (r : Row) (o c : Nat) (h : o + c ≤ r.length) :
    bytesNat ((r.drop o).take c) = bytesNat r / 256 ^ o % 256 ^ c := by
  have hsp : r = r.take o ++ ((r.drop o).take c ++ (r.drop o).drop c) := by
    rw [List.take_append_drop, List.take_append_drop]
  have l1 : (r.take o).length = o := by rw [List.length_take]; omega
  have l2 : ((r.drop o).take c).length = c := by rw [List.length_take, List.length_drop]; omega
  have b1 := Table.bytesNat_lt (r.take o)
  have b2 := Table.bytesNat_lt ((r.drop o).take c)
  conv_rhs => rw [hsp]
  rw [bytesNat_append, bytesNat_append]
  rw [l1] at b1 ⊢
  rw [l2] at b2 ⊢
  rw [Nat.add_mul_div_left _ _ (Nat.pow_pos (by decide)), Nat.div_eq_of_lt b1, Nat.zero_add, Nat.add_mul_mod_self_left, Nat.mod_eq_of_lt b2]

theorem natBytes_length (k v : Nat) : (natBytes k v).length = k := by simp [natBytes]

theorem natBytes_slice (k v o c : Nat) (h : o + c ≤ k) : ((natBytes k v).drop o).take c = natBytes c (v / 256 ^ o) := by
  apply List.ext_getElem
  · simp [natBytes]; omega
  · intro i h1 h2
    simp only [natBytes, List.getElem_take, List.getElem_drop, List.getElem_map, List.getElem_range]
    rw [Nat.div_div_eq_div_mul, Nat.pow_add]

/-! ## Sums of sorted groups -/

open Radix (rank rank_lt rank_inj rankList_perm Ranked rank_lt_rank rank_lt_iff)

/-- The sum of `f` over the rows with the key of row `i`. -/
def groupSum (n : Nat) (sk : Nat → Nat) (f : Nat → Nat) (i : Nat) : Nat :=
  (((List.range n).filter fun a => decide (sk a = sk i)).map f).sum

theorem aggS_sum {V : Type} {op : V → V → V} {x : Nat → V} {b : Nat → Bool} {n M : Nat} {K : Nat → Nat} {val : V → Nat}
    (hM : ∀ v, val v < M) (hop : ∀ u v, val (op u v) = (val u + val v) % M)
    (hmono : ∀ p q, p ≤ q → q < n → K p ≤ K q) (hb : ∀ p, p + 1 < n → (b p = true ↔ K p = K (p + 1))) :
    ∀ k j, j + k + 1 = n → val (Agg.aggS op x b k j) =
      (((List.range' j (k + 1)).filter fun p => decide (K p = K j)).map fun p => val (x p)).sum % M := by
  intro k
  induction k with
  | zero =>
    intro j _
    simp [Agg.aggS, List.range'_one, Nat.mod_eq_of_lt (hM (x j))]
  | succ k ih =>
    intro j hj
    have h1 := ih (j + 1) (by omega)
    rw [List.range'_succ, List.filter_cons_of_pos (by simp)]
    simp only [Agg.aggS, List.map_cons, List.sum_cons]
    have hbj := hb j (by omega)
    by_cases h : b j = true
    · rw [if_pos h, hop, h1, Nat.add_mod_mod, hbj.mp h]
    · rw [if_neg h]
      have hne : K j ≠ K (j + 1) := fun e => h (hbj.mpr e)
      have : (List.range' (j + 1) (k + 1)).filter (fun p => decide (K p = K j)) = [] := by
        rw [List.filter_eq_nil_iff]
        intro p hp
        rw [List.mem_range'_1] at hp
        have a1 := hmono j (j + 1) (by omega) (by omega)
        have a2 := hmono (j + 1) p hp.1 (by omega)
        simp only [decide_eq_true_eq]
        omega
      rw [this]
      simp [Nat.mod_eq_of_lt (hM (x j))]

/-- In rows sorted by key, with control bits saying whether a key equals its successor, the sum at the first row of a key is
the sum over all rows of the key. -/
theorem first_sum {V : Type} {op : V → V → V} {x : Nat → V} {b : Nat → Bool} {n M : Nat} {sk : Nat → Nat} {val : V → Nat}
    (hM : ∀ v, val v < M) (hop : ∀ u v, val (op u v) = (val u + val v) % M)
    (hb : ∀ a, a < n → ∀ a', a' < n → rank n sk a' = rank n sk a + 1 → (b (rank n sk a) = true ↔ sk a = sk a'))
    {i : Nat} (hi : i < n) (hf : ∀ m, m < n → sk m = sk i → i ≤ m) :
    val (Agg.aggS op x b (n - rank n sk i - 1) (rank n sk i)) = groupSum n sk (fun a => val (x (rank n sk a))) i % M := by
  -- the key at a sorted position
  obtain ⟨K, hK⟩ : ∃ K : Nat → Nat, ∀ a, a < n → K (rank n sk a) = sk a := by
    refine ⟨fun p => if h : p < n then sk (Classical.choose (rank_surj sk h)) else 0, fun a ha => ?_⟩
    have h := rank_lt sk ha
    simp only [dif_pos h]
    have hc := Classical.choose_spec (rank_surj sk h)
    rw [rank_inj sk hc.1 ha hc.2]
  have hsurj : ∀ p, p < n → ∃ a, a < n ∧ rank n sk a = p := fun p hp => rank_surj sk hp
  have hmono : ∀ p q, p ≤ q → q < n → K p ≤ K q := by
    intro p q hpq hq
    obtain ⟨a, ha, rfl⟩ := hsurj p (by omega)
    obtain ⟨a', ha', rfl⟩ := hsurj q hq
    rw [hK a ha, hK a' ha']
    by_contra hlt
    have := rank_lt_rank sk ha' (show KeyOrder sk a' a by unfold KeyOrder; omega)
    omega
  have hr := rank_lt sk hi
  rw [aggS_sum (n := n) (K := K) hM hop hmono (by
    intro p hp
    obtain ⟨a, ha, ra⟩ := hsurj p (by omega)
    obtain ⟨a', ha', ra'⟩ := hsurj (p + 1) hp
    have := hb a ha a' ha' (by omega)
    rw [← ra', ← ra, hK a ha, hK a' ha']
    exact this) _ _ (by omega)]
  congr 1
  have hsplit : List.range n = List.range' 0 (rank n sk i) ++ List.range' (rank n sk i) (n - rank n sk i - 1 + 1) := by
    have := List.range'_append_1 (s := 0) (m := rank n sk i) (n := n - rank n sk i - 1 + 1)
    rw [Nat.zero_add] at this
    rw [this, List.range_eq_range']
    congr 1
    omega
  have hperm : ((List.range n).map (rank n sk)).Perm (List.range n) := by
    have := isPermList_iff_perm.mp (rankList_perm n sk)
    simpa using this
  have hKi := hK i hi
  have hfirst : (List.range' 0 (rank n sk i)).filter (fun p => decide (K p = K (rank n sk i))) = [] := by
    rw [List.filter_eq_nil_iff]
    intro p hp
    rw [List.mem_range'_1] at hp
    simp only [decide_eq_true_eq]
    intro e
    obtain ⟨a, ha, ra⟩ := hsurj p (by omega)
    rw [← ra, hK a ha, hKi] at e
    have h1 := hf a ha e
    have h2 := (rank_lt_iff sk ha hi).mp (by omega)
    unfold KeyOrder at h2
    omega
  have h1 : ((List.range n).filter fun p => decide (K p = K (rank n sk i))) =
      (List.range' (rank n sk i) (n - rank n sk i - 1 + 1)).filter fun p => decide (K p = K (rank n sk i)) := by
    rw [hsplit, List.filter_append, hfirst, List.nil_append]
  rw [← h1]
  have h2 := ((hperm.filter fun p => decide (K p = K (rank n sk i))).map fun p => val (x p)).sum_eq
  rw [← h2]
  unfold groupSum
  rw [List.filter_map, List.map_map]
  congr 1
  have : (List.range n).filter ((fun p => decide (K p = K (rank n sk i))) ∘ rank n sk) =
      (List.range n).filter fun a => decide (sk a = sk i) := by
    apply List.filter_congr
    intro a ha
    simp only [Function.comp, hK a (List.mem_range.mp ha), hKi]
  rw [this]
  rfl

/-! ## Packing -/

/-- What both parties' inputs have in common: row counts and widths. -/
structure SameInp (n : Nat) (i0 i1 : Inp) : Prop where
  k0 : Shape n (colBytes i0.key) i0.key.data.rows
  k1 : Shape n (colBytes i0.key) i1.key.data.rows
  kb : i1.key.info.bits = i0.key.info.bits
  a0 : i0.act.length = n
  a1 : i1.act.length = n
  avg : List.Forall₂ (fun a b => b.info.bits = a.info.bits ∧ Shape n (colBytes a) a.data.rows ∧
    Shape n (colBytes a) b.data.rows) i0.avg i1.avg

theorem SameInp.sums {n : Nat} {i0 i1 : Inp} (h : SameInp n i0 i1) : i1.avg.map colBytes = i0.avg.map colBytes ∧
    sumBytes i1 = sumBytes i0 ∧ sizes i1 = sizes i0 ∧ (∀ c ∈ i0.avg, Shape n (colBytes c) c.data.rows) ∧
    (∀ c ∈ i1.avg, Shape n (colBytes c) c.data.rows) ∧ colBytes i1.key = colBytes i0.key := by
  have key : ∀ {l m : List Column}, List.Forall₂ (fun a b => b.info.bits = a.info.bits ∧ Shape n (colBytes a) a.data.rows ∧
      Shape n (colBytes a) b.data.rows) l m → m.map colBytes = l.map colBytes ∧
      m.map (fun c => c.info.bits) = l.map (fun c => c.info.bits) ∧ (∀ c ∈ l, Shape n (colBytes c) c.data.rows) ∧
      (∀ c ∈ m, Shape n (colBytes c) c.data.rows) := by
    intro l m hf
    induction hf with
    | nil => simp
    | @cons a b l m hab _ ih =>
      have hcb : colBytes b = colBytes a := by unfold colBytes; rw [hab.1]
      refine ⟨by simp [hcb, ih.1], by simp [hab.1, ih.2.1], ?_, ?_⟩
      · intro c hc
        rcases List.mem_cons.mp hc with rfl | hc
        · exact hab.2.1
        · exact ih.2.2.1 c hc
      · intro c hc
        rcases List.mem_cons.mp hc with rfl | hc
        · rw [hcb]; exact hab.2.2
        · exact ih.2.2.2 c hc
  obtain ⟨e1, e2, e3, e4⟩ := key h.avg
  exact ⟨e1, by unfold sumBytes; rw [e1], by unfold sizes; rw [e2], e3, e4, by unfold colBytes; rw [h.kb]⟩

/-- The row `concatColumns` builds. -/
def packedRow (party : Nat) (i : Inp) (ck : BinMatrix) (j : Nat) : Row :=
  packRow (allCols party i ck) j ++ [i.act.getD j 0]

theorem ones_shape (party n : Nat) : Shape n (colBytes (ones party n)) (ones party n).data.rows := by
  refine ⟨by simp [ones], fun x hx => ?_⟩
  simp only [ones] at hx
  rw [(List.mem_replicate.mp hx).2]
  simp [colBytes, divCeil, ones]

theorem allCols_shape {n : Nat} {i : Inp} {ck : BinMatrix} (party : Nat) (hk : Shape n (colBytes i.key) i.key.data.rows)
    (havg : ∀ c ∈ i.avg, Shape n (colBytes c) c.data.rows) (hck : Shape n ck.cols ck.rows) (hcc : ck.cols = divCeil ck.bits 8) :
    (∀ c ∈ allCols party i ck, Shape n (colBytes c) c.data.rows) ∧
    ((allCols party i ck).map colBytes).sum = flagByte i ck.bits := by
  constructor
  · intro c hc
    simp only [allCols, dataCols, List.mem_append, List.mem_cons, List.not_mem_nil, or_false] at hc
    rcases hc with (hc | rfl) | rfl | rfl
    · exact havg c hc
    · rw [hk.1]; exact ones_shape party n
    · exact hk
    · simp only [colBytes]; rw [← hcc]; exact hck
  · simp only [allCols, dataCols, List.map_append, List.sum_append, List.map_cons, List.map_nil, List.sum_cons, List.sum_nil,
      flagByte, sumBytes]
    simp only [colBytes, ones, divCeil]
    omega

theorem concat_ok {n : Nat} {i : Inp} {ck : BinMatrix} (party : Nat) (hk : Shape n (colBytes i.key) i.key.data.rows)
    (havg : ∀ c ∈ i.avg, Shape n (colBytes c) c.data.rows) (hck : Shape n ck.cols ck.rows) (hcc : ck.cols = divCeil ck.bits 8)
    (ha : i.act.length = n) : concatColumns party i ck = .ok ((List.range n).map (packedRow party i ck)) ∧
      Shape n (flagByte i ck.bits + 1) ((List.range n).map (packedRow party i ck)) := by
  obtain ⟨hs, hsum⟩ := allCols_shape party hk havg hck hcc
  set fb := flagByte i ck.bits with hfb
  have hz : Shape n (fb + 1) (List.replicate n (List.replicate (fb + 1) (0 : Byte))) := by
    refine ⟨by rw [List.length_replicate], fun x hx => ?_⟩
    rw [(List.mem_replicate.mp hx).2, List.length_replicate]
  have hzg : ∀ j, j < n → (List.replicate n (List.replicate (fb + 1) (0 : Byte))).getD j [] = List.replicate (fb + 1) 0 := by
    intro j hj
    rw [List.getD_eq_getElem?_getD, List.getElem?_replicate, if_pos hj]
    rfl
  obtain ⟨r1, e1, s1, a1, -⟩ := putCols_ok (nL := n) (n := n) (W := fb + 1) (le_refl n) (allCols party i ck) 0 _ hz hs (by omega)
  have hal : ((i.act.take n).map fun b => [b]).length = n := by simp [ha]
  obtain ⟨r2, e2, s2, a2, -⟩ := putCol_ok (off := fb) (W := fb + 1) (s := 1) (le_refl _) r1 ((i.act.take n).map fun b => [b]) s1.2
    (fun x hx => by obtain ⟨b, -, rfl⟩ := List.mem_map.mp hx; rfl) (by rw [hal, s1.1])
  rw [s1.1] at s2
  rw [hal] at a2
  have hfin : r2 = (List.range n).map (packedRow party i ck) := by
    apply List.ext_getElem (by simp [s2.1])
    intro j h1 h2
    have hj : j < n := by rw [← s2.1]; exact h1
    have := a2 j hj
    rw [List.getD_eq_getElem?_getD, List.getElem?_eq_getElem h1] at this
    simp only [Option.getD_some] at this
    rw [this, a1 j hj, hzg j hj]
    have hp := packRow_length hs hj
    rw [hsum] at hp
    have hact : ((i.act.take n).map fun b => [b]).getD j [] = [i.act.getD j 0] := by
      simp [List.getD_eq_getElem?_getD, ha, hj]
    rw [hact, List.take_zero, List.nil_append, Nat.zero_add, hsum, List.take_append_of_le_length (by omega),
      List.take_of_length_le (by omega), List.drop_eq_nil_of_le (by simp [hp]), List.append_nil]
    simp [packedRow]
  constructor
  · unfold concatColumns
    simp only []
    rw [hk.1, ← hfb, e1, ok_bind, if_neg (by omega), e2, hfin]
  · rw [← hfin]; exact s2

theorem packRow_append (a b : List Column) (j : Nat) : packRow (a ++ b) j = packRow a j ++ packRow b j := by
  simp [packRow]

/-- The revealed values to sum up of row `j`, and one for the count. -/
def sumPart (i0 i1 : Inp) (j : Nat) : Row :=
  (List.zipWith (fun a b => shown a b j) i0.avg i1.avg).flatten ++ 1 :: List.replicate 7 0

theorem sumPart_eq {n : Nat} {i0 i1 : Inp} (h : SameInp n i0 i1) {j : Nat} (hj : j < n) :
    xorRow (packRow (dataCols 0 i0) j) (packRow (dataCols 1 i1) j) = sumPart i0 i1 j ∧
    (packRow (dataCols 0 i0) j).length = sumBytes i0 ∧ (packRow (dataCols 1 i1) j).length = sumBytes i0 := by
  have key : ∀ {l m : List Column}, List.Forall₂ (fun a b => b.info.bits = a.info.bits ∧ Shape n (colBytes a) a.data.rows ∧
      Shape n (colBytes a) b.data.rows) l m → xorRow (packRow l j) (packRow m j) = (List.zipWith (fun a b => shown a b j) l m).flatten ∧
      (packRow l j).length = (l.map colBytes).sum ∧ (packRow m j).length = (l.map colBytes).sum := by
    intro l m hf
    induction hf with
    | nil => simp [packRow, xorRow]
    | @cons a b l m hab _ ih =>
      have h1 := shape_getD hab.2.1 hj
      have h2 := shape_getD hab.2.2 hj
      refine ⟨?_, ?_, ?_⟩
      · have e := ih.1
        simp only [packRow, List.map_cons, List.flatten_cons, List.zipWith_cons_cons] at e ⊢
        rw [xorRow_append (by rw [h1, h2]), e]
        rfl
      · have e := ih.2.1
        simp only [packRow, List.map_cons, List.flatten_cons, List.length_append, List.sum_cons] at e ⊢
        rw [e, h1]
      · have e := ih.2.2
        simp only [packRow, List.map_cons, List.flatten_cons, List.length_append, List.sum_cons] at e ⊢
        rw [e, h2]
  obtain ⟨e1, e2, e3⟩ := key h.avg
  have o : ∀ p, packRow [ones p n] j = (if p ≠ 0 then 1 else 0) :: List.replicate 7 0 := by
    intro p
    simp [packRow, ones, List.getD_eq_getElem?_getD, List.getElem?_replicate, hj]
  unfold dataCols
  rw [h.k0.1, h.k1.1, packRow_append, packRow_append, o, o]
  refine ⟨?_, ?_, ?_⟩
  · rw [xorRow_append (by rw [e2, e3]), e1]
    rfl
  · rw [List.length_append, e2]; rfl
  · rw [List.length_append, e3]; rfl

theorem sumPart_length {n : Nat} {i0 i1 : Inp} (h : SameInp n i0 i1) {j : Nat} (hj : j < n) :
    (sumPart i0 i1 j).length = sumBytes i0 := by
  obtain ⟨e, l0, l1⟩ := sumPart_eq h hj
  rw [← e, xorRow_length (by rw [l0, l1]), l0]

/-- The keys that are sorted and compared. -/
structure SameKeys (n : Nat) (k0 k1 : BinMatrix) : Prop where
  s0 : Shape n k0.cols k0.rows
  s1 : Shape n k0.cols k1.rows
  bits : k1.bits = k0.bits
  cols : k1.cols = k0.cols
  bytes : k0.cols = divCeil k0.bits 8

/-- A row of the data to sort, both parties together. -/
theorem packed_xor {n : Nat} {i0 i1 : Inp} {k0 k1 : BinMatrix} (h : SameInp n i0 i1) (hk : SameKeys n k0 k1) {j : Nat} (hj : j < n) :
    xorRow (packedRow 0 i0 k0 j) (packedRow 1 i1 k1 j) = sumPart i0 i1 j ++ shown i0.key i1.key j ++
      xorRow (k0.rows.getD j []) (k1.rows.getD j []) ++ [i0.act.getD j 0 ^^^ i1.act.getD j 0] := by
  obtain ⟨e, l0, l1⟩ := sumPart_eq h hj
  have a0 := shape_getD h.k0 hj
  have a1 := shape_getD h.k1 hj
  have b0 := shape_getD hk.s0 hj
  have b1 := shape_getD hk.s1 hj
  have p : ∀ (i : Inp) (k : BinMatrix), packRow [i.key, ⟨⟨[], .bin, k.bits⟩, k⟩] j = i.key.data.rows.getD j [] ++ k.rows.getD j [] := by
    intro i k; simp [packRow]
  unfold packedRow allCols
  rw [packRow_append, packRow_append, p, p, ← List.append_assoc, ← List.append_assoc, xorRow_append (by simp only [List.length_append, l0, l1, a0, a1, b0, b1]),
    xorRow_append (by simp only [List.length_append, l0, l1, a0, a1]), xorRow_append (by rw [l0, l1]), e]
  rfl

theorem back_ok {n c : Nat} {i : Inp} {a t : List Row} (ha : Shape n (sumBytes i) a) (ht : Shape n c t)
    (hc : sumBytes i + colBytes i.key ≤ c) (f : Nat → Bool) :
    back i a t f = .ok ((List.range n).map fun j => a.getD j [] ++ ((t.getD j []).drop (sumBytes i)).take (colBytes i.key) ++
      [if f j then 1 else 0]) := by
  unfold back
  rw [ha.1]
  apply mapRes_ok
  intro j hj
  have := shape_getD ht (List.mem_range.mp hj)
  rw [slice_ok (by omega), ok_bind]

theorem sizes_le (i : Inp) : divCeil (sizes i).sum 8 ≤ sumBytes i := by
  have : (i.avg.map fun c => c.info.bits).sum ≤ 8 * (i.avg.map colBytes).sum := by
    induction i.avg with
    | nil => simp
    | cons c l ih =>
      simp only [List.map_cons, List.sum_cons]
      have : c.info.bits ≤ 8 * colBytes c := by unfold colBytes divCeil; omega
      omega
  unfold sizes sumBytes divCeil
  rw [List.sum_append]
  simp only [List.sum_cons, List.sum_nil]
  omega

theorem sumRow_length (i : Inp) (v : Nat) (junk : Nat → Byte) : (sumRow i v junk).length = sumBytes i := by
  have := sizes_le i
  simp only [sumRow, List.length_append, natBytes_length, List.length_map, List.length_range]
  omega

/-! ## The group-by after the sort -/

/-- The group-by after the sort, up to the permutation back: the revealed row at the sorted position of row `i`. -/
theorem groupSorted_pre {n W0 o0 W1 o1 : Nat} {i0 i1 : Inp} {k0 k1 : BinMatrix} (h : SameInp n i0 i1) (hk : SameKeys n k0 k1)
    (h2 : 2 ≤ n) {sk : Nat → Nat} {s0 s1 : List (BitVec 32)} (hs : Ranked n sk s0 s1)
    {p0 p1 : ComposedPerm} (hp : CompInv n W0 o0 W1 o1 p0 p1)
    (hw0 : o0 + (flagByte i0 k0.bits + 1) ≤ W0) (hw1 : o1 + 4 + (flagByte i0 k0.bits + 1) ≤ W1) (r : Rnd) :
    ∃ rows u0 u1 p0a p1a, rows.length = n ∧
      (∀ i, i < n → rows.getD (rank n sk i) [] = xorRow (packedRow 0 i0 k0 i) (packedRow 1 i1 k1 i)) ∧
      Shape n (sumBytes i0 + colBytes i0.key + 1) u0 ∧ Shape n (sumBytes i0 + colBytes i0.key + 1) u1 ∧
      CompInv n W0 (o0 + (flagByte i0 k0.bits + 1)) W1 (o1 + 4 + (flagByte i0 k0.bits + 1)) p0a p1a ∧
      gather p1a.snd.perm.pi p0a.snd.perm.pi = (List.range n).map (rank n sk) ∧
      (∀ i, i < n → xorRow (u0.getD (rank n sk i) []) (u1.getD (rank n sk i) []) =
        sumRow i0 (Agg.aggS (addAt (sizes i0)) (fun j => leafVal i0 (rows.getD j []))
            (Agg.bS ((List.range n).map (ctrlAt n (sumBytes i0 + colBytes i0.key) k0.bits rows)) n) (n - rank n sk i - 1) (rank n sk i))
          (r.junk (rank n sk i)) ++
        shown i0.key i1.key i ++
        [if !ctrlAt n (sumBytes i0 + colBytes i0.key) k0.bits rows (rank n sk i) && (i0.act.getD i 0 ^^^ i1.act.getD i 0).getLsbD 0
          then 1 else 0]) ∧
      groupSorted i0 i1 k0 k1 s0 s1 p0 p1 r = (do
        let (_, _, v0, v1) ← ComposedPerm.applyBoth p0a p1a .regular ⟨sumBytes i0 + colBytes i0.key + 1, u0⟩
          ⟨sumBytes i0 + colBytes i0.key + 1, u1⟩
        let o0 ← getOutput i0 v0.rows
        let o1 ← getOutput i1 v1.rows
        .ok (o0, o1)) := by
  obtain ⟨m1, m2, m3, m4, m5, m6⟩ := h.sums
  have hk1 : Shape n (colBytes i1.key) i1.key.data.rows := by rw [m6]; exact h.k1
  obtain ⟨c0, d0⟩ := concat_ok (ck := k0) 0 h.k0 m4 hk.s0 hk.bytes h.a0
  obtain ⟨c1, d1⟩ := concat_ok (ck := k1) 1 hk1 m5 (by rw [hk.cols]; exact hk.s1) (by rw [hk.cols, hk.bits]; exact hk.bytes) h.a1
  have hfl : flagByte i1 k1.bits = flagByte i0 k0.bits := by unfold flagByte; rw [m2, m6, hk.bits]
  rw [hfl] at d1
  set fb := flagByte i0 k0.bits with hfb
  set off := sumBytes i0 + colBytes i0.key with hoff
  have hfo : fb = off + divCeil k0.bits 8 := rfl
  have hRp := rankList_perm n sk
  have hRl : ((List.range n).map (rank n sk)).length = n := by simp
  have hRlt : ∀ x ∈ (List.range n).map (rank n sk), x < n := by
    intro x hx; have := hRp.1 x hx; rwa [hRl] at this
  obtain ⟨p0', p1', ed, hi, hg⟩ := composed_derandomize_ok hp (by omega) hs.1 hs.2.1 (by rw [hs.list]; exact hRp) (by omega)
  rw [hs.list] at hg
  obtain ⟨p0a, p1a, t0, t1, ea, hia, q0a, q1a, st0, st1, hx⟩ := composed_applyBoth_ok hi (by omega) (op := .inverse)
    (x0 := ⟨fb + 1, (List.range n).map (packedRow 0 i0 k0)⟩) (x1 := ⟨fb + 1, (List.range n).map (packedRow 1 i1 k1)⟩) d0 d1 rfl
    (by show o0 + (fb + 1) ≤ W0; omega) (by show o1 + 4 + (fb + 1) ≤ W1; omega)
  rw [hg] at hx
  simp only at hx st0 st1 hia ea
  set rows := xm t0 t1 with hrows
  have hrs : Shape n (fb + 1) rows := xm_shape st0 st1
  have hgr : gather ((List.range n).map (rank n sk)) rows =
      xm ((List.range n).map (packedRow 0 i0 k0)) ((List.range n).map (packedRow 1 i1 k1)) := by
    rw [hx]
    exact (gather_cancel hRp (by rw [(xm_shape d0 d1).1, hRl])).2
  have hrow : ∀ i, i < n → rows.getD (rank n sk i) [] = xorRow (packedRow 0 i0 k0 i) (packedRow 1 i1 k1 i) := by
    intro i hi'
    have := congrArg (fun l : List Row => l[i]?) hgr
    beta_reduce at this
    rw [gather_getElem? (by rw [hrs.1]; exact hRlt)] at this
    simp only [List.getElem?_map, List.getElem?_range hi', Option.map_some, Option.bind_some, xm, List.getElem?_zipWith] at this
    rw [List.getD_eq_getElem?_getD, this]
    rfl
  set cb := (List.range n).map (ctrlAt n off k0.bits rows) with hcbd
  have hcb : controlBits off k0.bits rows = .ok cb := by
    unfold controlBits
    rw [hrs.1, if_neg (by omega), hcbd]
    congr 1
    apply List.map_congr_left
    intro j hj
    have := List.mem_range.mp hj
    unfold ctrlAt
    by_cases h0 : j = 0
    · simp [h0]
    · simp [h0, this]
  have hcbl : cb.length = n := by simp [hcbd]
  have hcbg : ∀ j, j < n → cb.getD j false = ctrlAt n off k0.bits rows j := by
    intro j hj
    rw [hcbd, List.getD_eq_getElem?_getD, List.getElem?_map, List.getElem?_range hj]
    rfl
  have hleafl : (rows.map (leafVal i0)).length = n := by rw [List.length_map, hrs.1]
  obtain ⟨sums, eg, gl, gg⟩ := Agg.aggTree_get (op := addAt (sizes i0)) (addAt_assoc _) 0 .suf (xs := rows.map (leafVal i0)) (c := cb)
    (by rw [hleafl]; exact h2) (by rw [hcbl, hleafl]) (by
      rw [hcbd, List.getElem?_map, List.getElem?_range (by omega)]
      simp [ctrlAt])
  rw [hleafl] at gl gg
  have hleaf : (fun j => (rows.map (leafVal i0)).getD j 0) = fun j => leafVal i0 (rows.getD j []) := by
    funext j
    simp only [List.getD_eq_getElem?_getD, List.getElem?_map]
    cases rows[j]? with
    | none => simp [leafVal, bytesNat]
    | some x => rfl
  set A := fun j => Agg.aggS (addAt (sizes i0)) (fun j => leafVal i0 (rows.getD j [])) (Agg.bS cb n) (n - j - 1) j with hA
  have hsum : ∀ j, j < n → sums.getD j 0 = A j := by
    intro j hj
    rw [List.getD_eq_getElem?_getD, gg j hj]
    simp only [Agg.pick, Option.getD_some, hleaf, hA]
  obtain ⟨sumRows, hsr⟩ : ∃ q, q = (List.range n).map fun j => sumRow i0 (sums.getD j 0) (r.junk j) := ⟨_, rfl⟩
  have hss : Shape n (sumBytes i0) sumRows := by
    refine ⟨by simp [hsr], fun x hx => ?_⟩
    rw [hsr] at hx
    obtain ⟨j, -, rfl⟩ := List.mem_map.mp hx
    exact sumRow_length _ _ _
  have hsg : ∀ j, j < n → sumRows.getD j [] = sumRow i0 (A j) (r.junk j) := by
    intro j hj
    rw [hsr, List.getD_eq_getElem?_getD, List.getElem?_map, List.getElem?_range hj, ← hsum j hj]
    rfl
  obtain ⟨sa0, sa1, sx⟩ := shareRows_ok r.agg hss
  set new := (List.range n).map fun j => Gmw.table .naAnd (cb.getD j false) (((rows.getD j []).getD fb 0).getLsbD 0) with hnew
  have eu0 := back_ok (i := i0) sa0 st0 (by omega) r.flag
  have eu1 := back_ok (i := i1) (by rw [m2]; exact sa1) st1 (by rw [m2, m6]; omega) (fun j => r.flag j ^^ new.getD j false)
  rw [m2, m6] at eu1
  obtain ⟨u0, hu0⟩ : ∃ u, u = ((List.range n).map fun j => (shareRows (sumBytes i0) r.agg sumRows).1.getD j [] ++
    ((t0.getD j []).drop (sumBytes i0)).take (colBytes i0.key) ++ [if r.flag j then (1 : Byte) else 0]) := ⟨_, rfl⟩
  obtain ⟨u1, hu1⟩ : ∃ u, u = ((List.range n).map fun j => (shareRows (sumBytes i0) r.agg sumRows).2.getD j [] ++
    ((t1.getD j []).drop (sumBytes i0)).take (colBytes i0.key) ++ [if r.flag j ^^ new.getD j false then (1 : Byte) else 0]) := ⟨_, rfl⟩
  have shp : ∀ {a t : List Row} {f : Nat → Bool}, Shape n (sumBytes i0) a → Shape n (fb + 1) t →
      Shape n (off + 1) ((List.range n).map fun j => a.getD j [] ++
        ((t.getD j []).drop (sumBytes i0)).take (colBytes i0.key) ++ [if f j then (1 : Byte) else 0]) := by
    intro a t f ha ht
    refine ⟨by simp, fun x hx => ?_⟩
    obtain ⟨j, hj, rfl⟩ := List.mem_map.mp hx
    have hj' := List.mem_range.mp hj
    have l1 := shape_getD ha hj'
    have l2 := shape_getD ht hj'
    simp only [List.length_append, List.length_take, List.length_drop, l1, l2, List.length_cons, List.length_nil]
    omega
  have su0 : Shape n (off + 1) u0 := by rw [hu0]; exact shp sa0 st0
  have su1 : Shape n (off + 1) u1 := by rw [hu1]; exact shp (f := fun j => r.flag j ^^ new.getD j false) sa1 st1
  rw [← hu0] at eu0
  rw [← hu1] at eu1
  refine ⟨rows, u0, u1, p0a, p1a, hrs.1, hrow, su0, su1, hia, by rw [q0a, q1a]; exact hg, ?_, ?_⟩
  · intro i hi'
    have hlt : rank n sk i < n := rank_lt sk hi'
    have hR := hrow i hi'
    rw [packed_xor h hk hi'] at hR
    have hkeyl : (shown i0.key i1.key i).length = colBytes i0.key := by
      unfold shown
      rw [xorRow_length (by rw [shape_getD h.k0 hi', shape_getD h.k1 hi']), shape_getD h.k0 hi']
    have hsl := sumPart_length h hi'
    have hcl : (xorRow (k0.rows.getD i []) (k1.rows.getD i [])).length = divCeil k0.bits 8 := by
      rw [xorRow_length (by rw [shape_getD hk.s0 hi', shape_getD hk.s1 hi']), shape_getD hk.s0 hi', hk.bytes]
    have g0 : u0.getD (rank n sk i) [] = (shareRows (sumBytes i0) r.agg sumRows).1.getD (rank n sk i) [] ++
        ((t0.getD (rank n sk i) []).drop (sumBytes i0)).take (colBytes i0.key) ++ [if r.flag (rank n sk i) then (1 : Byte) else 0] := by
      rw [hu0, List.getD_eq_getElem?_getD, List.getElem?_map, List.getElem?_range hlt]; rfl
    have g1 : u1.getD (rank n sk i) [] = (shareRows (sumBytes i0) r.agg sumRows).2.getD (rank n sk i) [] ++
        ((t1.getD (rank n sk i) []).drop (sumBytes i0)).take (colBytes i0.key) ++
        [if r.flag (rank n sk i) ^^ new.getD (rank n sk i) false then (1 : Byte) else 0] := by
      rw [hu1, List.getD_eq_getElem?_getD, List.getElem?_map, List.getElem?_range hlt]; rfl
    have l0 := shape_getD sa0 hlt
    have l1 := shape_getD sa1 hlt
    have y0 := shape_getD st0 hlt
    have y1 := shape_getD st1 hlt
    rw [g0, g1, xorRow_append (by simp only [List.length_append, List.length_take, List.length_drop, l0, l1, y0, y1]),
      xorRow_append (by rw [l0, l1]), ← xm_getD sa0 sa1 hlt]
    have hsx : List.zipWith xorRow (shareRows (sumBytes i0) r.agg sumRows).1 (shareRows (sumBytes i0) r.agg sumRows).2 = sumRows := sx
    rw [hsx, hsg _ hlt]
    congr 1
    · congr 1
      rw [xorRow_take]
      have : xorRow ((t0.getD (rank n sk i) []).drop (sumBytes i0)) ((t1.getD (rank n sk i) []).drop (sumBytes i0)) =
          (rows.getD (rank n sk i) []).drop (sumBytes i0) := by
        rw [hrows, xm, xm_getD st0 st1 hlt]
        unfold xorRow
        rw [List.drop_zipWith]
      rw [this, hR, ← hsl, List.append_assoc, List.append_assoc, List.drop_left, ← hkeyl, List.take_left]
    · have hnj : new.getD (rank n sk i) false = (!ctrlAt n off k0.bits rows (rank n sk i) &&
          (i0.act.getD i 0 ^^^ i1.act.getD i 0).getLsbD 0) := by
        rw [hnew, List.getD_eq_getElem?_getD, List.getElem?_map, List.getElem?_range hlt]
        simp only [Option.map_some, Option.getD_some, Gmw.table]
        rw [hcbg _ hlt, hR]
        have hll : (sumPart i0 i1 i ++ shown i0.key i1.key i ++ xorRow (k0.rows.getD i []) (k1.rows.getD i [])).length = fb := by
          rw [List.length_append, List.length_append, hsl, hkeyl, hcl, hfo, hoff]
        congr 2
        rw [List.getD_eq_getElem?_getD, List.getElem?_append_right (by omega), hll, Nat.sub_self]
        rfl
      rw [hnj]
      generalize (!ctrlAt n off k0.bits rows (rank n sk i) && (i0.act.getD i 0 ^^^ i1.act.getD i 0).getLsbD 0) = b
      cases r.flag (rank n sk i) <;> cases b <;> rfl
  · unfold groupSorted
    simp only []
    rw [c0, ok_bind, c1, ok_bind, ed, ok_bind]
    simp only []
    rw [← hfb, ea, ok_bind]
    simp only []
    rw [show List.zipWith xorRow t0 t1 = rows from rfl, ← hoff, hcb, ok_bind, eg, ok_bind, hrs.1, gl, ← hsr, eu0, ok_bind,
      ← hnew, eu1, ok_bind]

/-- The group-by after the sort: row `i` of the result is what the tree left at the sorted position of row `i`, the key of
row `i`, and a flag that is one if the row is active and its key differs from the one before. -/
theorem groupSorted_ok {n W0 o0 W1 o1 : Nat} {i0 i1 : Inp} {k0 k1 : BinMatrix} (h : SameInp n i0 i1) (hk : SameKeys n k0 k1)
    (h2 : 2 ≤ n) {sk : Nat → Nat} {s0 s1 : List (BitVec 32)} (hs : Ranked n sk s0 s1)
    {p0 p1 : ComposedPerm} (hp : CompInv n W0 o0 W1 o1 p0 p1)
    (hw0 : o0 + (flagByte i0 k0.bits + 1) + (sumBytes i0 + colBytes i0.key + 1) ≤ W0)
    (hw1 : o1 + 4 + (flagByte i0 k0.bits + 1) + (sumBytes i0 + colBytes i0.key + 1) ≤ W1) (r : Rnd) :
    ∃ rows v0 v1, rows.length = n ∧
      (∀ i, i < n → rows.getD (rank n sk i) [] = xorRow (packedRow 0 i0 k0 i) (packedRow 1 i1 k1 i)) ∧
      Shape n (sumBytes i0 + colBytes i0.key + 1) v0 ∧ Shape n (sumBytes i0 + colBytes i0.key + 1) v1 ∧
      (∀ i, i < n → xorRow (v0.getD i []) (v1.getD i []) =
        sumRow i0 (Agg.aggS (addAt (sizes i0)) (fun j => leafVal i0 (rows.getD j []))
            (Agg.bS ((List.range n).map (ctrlAt n (sumBytes i0 + colBytes i0.key) k0.bits rows)) n) (n - rank n sk i - 1) (rank n sk i))
          (r.junk (rank n sk i)) ++
        shown i0.key i1.key i ++
        [if !ctrlAt n (sumBytes i0 + colBytes i0.key) k0.bits rows (rank n sk i) && (i0.act.getD i 0 ^^^ i1.act.getD i 0).getLsbD 0
          then 1 else 0]) ∧
      groupSorted i0 i1 k0 k1 s0 s1 p0 p1 r = (do
        let o0 ← getOutput i0 v0
        let o1 ← getOutput i1 v1
        .ok (o0, o1)) := by
  obtain ⟨rows, u0, u1, p0a, p1a, hrl, hrow, su0, su1, hia, hg, hu, e⟩ := groupSorted_pre h hk h2 hs hp (by omega) (by omega) r
  have hRp := rankList_perm n sk
  have hRl : ((List.range n).map (rank n sk)).length = n := by simp
  have hRlt : ∀ x ∈ (List.range n).map (rank n sk), x < n := by
    intro x hx; have := hRp.1 x hx; rwa [hRl] at this
  obtain ⟨p0b, p1b, v0, v1, eb, -, -, -, sv0, sv1, hv⟩ := composed_applyBoth_ok hia (by omega) (op := .regular)
    (x0 := ⟨sumBytes i0 + colBytes i0.key + 1, u0⟩) (x1 := ⟨sumBytes i0 + colBytes i0.key + 1, u1⟩) su0 su1 rfl
    (by show o0 + (flagByte i0 k0.bits + 1) + (sumBytes i0 + colBytes i0.key + 1) ≤ W0; omega)
    (by show o1 + 4 + (flagByte i0 k0.bits + 1) + (sumBytes i0 + colBytes i0.key + 1) ≤ W1; omega)
  rw [hg] at hv
  simp only at sv0 sv1 hv eb
  refine ⟨rows, v0, v1, hrl, hrow, sv0, sv1, ?_, ?_⟩
  · intro i hi'
    have hlt : rank n sk i < n := rank_lt sk hi'
    have hvi : (xm v0 v1).getD i [] = (xm u0 u1).getD (rank n sk i) [] := by
      rw [hv, permRows, List.getD_eq_getElem?_getD, gather_getElem? (by rw [(xm_shape su0 su1).1]; exact hRlt)]
      simp only [List.getElem?_map, List.getElem?_range hi', Option.map_some, Option.bind_some]
      rw [List.getD_eq_getElem?_getD]
    rw [← hu i hi', ← xm_getD sv0 sv1 hi', ← xm_getD su0 su1 hlt]
    exact hvi
  · rw [e, eb, ok_bind]

/-! ## The output -/

/-- Where column `k` of the sums starts. -/
def colStart (cs : List Column) (k : Nat) : Nat := ((cs.take k).map colBytes).sum

theorem outCols_ok {n W : Nat} {data : List Row} (hd : Shape n W data) : ∀ (cs : List Column) (off : Nat),
    off + (cs.map colBytes).sum ≤ W → ∃ cols : List Column, outCols data off cs = .ok cols ∧ cols.length = cs.length ∧
      ∀ (k : Nat) c, cs[k]? = some c → cols[k]? = some ⟨⟨c.info.name, c.info.type, colBytes c * 8⟩, ⟨colBytes c * 8, colBytes c,
          data.map fun r => (r.drop (off + colStart cs k)).take (colBytes c)⟩⟩ := by
  intro cs
  induction cs with
  | nil => intro off _; exact ⟨[], rfl, rfl, fun k c h => by simp at h⟩
  | cons a cs ih =>
    intro off hW
    simp only [List.map_cons, List.sum_cons] at hW
    obtain ⟨cols, e, l, g⟩ := ih (off + colBytes a) (by omega)
    refine ⟨⟨⟨a.info.name, a.info.type, colBytes a * 8⟩, ⟨colBytes a * 8, colBytes a, data.map fun r => (r.drop off).take (colBytes a)⟩⟩ :: cols,
      ?_, by simp [l], fun k c hk => ?_⟩
    · rw [outCols, mapRes_ok (g := fun r => (r.drop off).take (colBytes a)) (fun x hx => slice_ok (by rw [hd.2 x hx]; omega)), ok_bind,
        e, ok_bind]
    · cases k with
      | zero =>
        simp only [List.getElem?_cons_zero, Option.some.injEq] at hk
        subst hk
        simp [colStart]
      | succ k =>
        have := g k c (by simpa using hk)
        simpa [colStart, Nat.add_assoc] using this

theorem getOutput_ok {n : Nat} {i : Inp} {data : List Row} (hd : Shape n (sumBytes i + colBytes i.key + 1) data) :
    ∃ t, getOutput i data = .ok t ∧ t.isActive.length = n ∧ t.cols.length = i.avg.length + 2 ∧
      (∀ r, r < n → t.isActive.getD r 0 = (data.getD r []).getD (sumBytes i + colBytes i.key) 0) ∧
      (∃ o, t.cols[0]? = some o ∧ o.info = ⟨i.key.info.name, i.key.info.type, colBytes i.key * 8⟩ ∧ o.WF n ∧
        ∀ r, r < n → o.data.rows.getD r [] = ((data.getD r []).drop (sumBytes i)).take (colBytes i.key)) ∧
      ∀ (k : Nat) c, (i.avg ++ [countCol])[k]? = some c → ∃ o, t.cols[k + 1]? = some o ∧
        o.info = ⟨c.info.name, c.info.type, colBytes c * 8⟩ ∧ o.WF n ∧
        ∀ r, r < n → o.data.rows.getD r [] = ((data.getD r []).drop (colStart (i.avg ++ [countCol]) k)).take (colBytes c) := by
  have hg : ∀ (f : Row → Row) r, r < n → (data.map f).getD r [] = f (data.getD r []) := by
    intro f r hr
    rw [← hd.1] at hr
    simp only [List.getD_eq_getElem?_getD, List.getElem?_map, List.getElem?_eq_getElem hr, Option.map_some, Option.getD_some]
  have hsum : ((i.avg ++ [countCol]).map colBytes).sum = sumBytes i := by
    rw [List.map_append, List.sum_append]; rfl
  obtain ⟨cols, e, l, g⟩ := outCols_ok hd (i.avg ++ [countCol]) 0 (by rw [hsum]; omega)
  have hact : mapRes (fun r => rd r (sumBytes i + colBytes i.key)) data =
      .ok (data.map fun r => r.getD (sumBytes i + colBytes i.key) 0) := by
    apply mapRes_ok
    intro x hx
    have := hd.2 x hx
    rw [rd_ok (by omega)]
    simp [List.getD_eq_getElem?_getD, show sumBytes i + colBytes i.key < x.length by omega]
  have hkey := mapRes_ok (g := fun r => (r.drop (sumBytes i)).take (colBytes i.key)) (l := data) (f := slice (sumBytes i) (colBytes i.key))
    (fun x hx => slice_ok (by rw [hd.2 x hx]; omega))
  have hwf : ∀ (nm : List Byte) ty (o c : Nat), o + c ≤ sumBytes i + colBytes i.key + 1 →
      Column.WF ⟨⟨nm, ty, c * 8⟩, ⟨c * 8, c, data.map fun r => (r.drop o).take c⟩⟩ n := by
    intro nm ty o c ho
    have hdc : divCeil (c * 8) 8 = c := by unfold divCeil; omega
    refine ⟨rfl, hdc.symm, ⟨?_, ?_⟩, fun _ => by simp⟩
    · simp only [List.length_map]; exact hd.1
    · intro x hx
      rw [hdc]
      simp only [List.mem_map] at hx
      obtain ⟨y, hy, rfl⟩ := hx
      have := hd.2 y hy
      simp only [List.length_take, List.length_drop]
      omega
  refine ⟨_, by unfold getOutput; rw [hkey, ok_bind, e, ok_bind, hact, ok_bind], ?_, ?_, ?_, ?_, ?_⟩
  · rw [List.length_map]; exact hd.1
  · simp [l]
  · intro r hr
    rw [← hd.1] at hr
    simp only [List.getD_eq_getElem?_getD, List.getElem?_map, List.getElem?_eq_getElem hr, Option.map_some, Option.getD_some]
  · exact ⟨_, rfl, rfl, hwf _ _ _ _ (by omega), fun r hr => hg _ r hr⟩
  · intro k c hc
    refine ⟨_, by simpa using g k c hc, rfl, ?_, fun r hr => ?_⟩
    · apply hwf
      obtain ⟨hk, he⟩ := List.getElem?_eq_some_iff.mp hc
      have hsp : i.avg ++ [countCol] = (i.avg ++ [countCol]).take k ++ c :: (i.avg ++ [countCol]).drop (k + 1) := by
        conv => lhs; rw [← List.take_append_drop k (i.avg ++ [countCol]), List.drop_eq_getElem_cons hk, he]
      have h2 := congrArg (fun l => (l.map colBytes).sum) hsp
      simp only [hsum] at h2
      rw [List.map_append, List.sum_append, List.map_cons, List.sum_cons] at h2
      unfold colStart
      omega
    · rw [hg _ r hr]

end GroupBy
end SecJoin
