import Verif.Prf.F2Code
/-!
# The binary codes: C49
-/
namespace SecJoin
namespace F2

open Mod3 (Block)

/-- The sum of `n` bits. -/
def xorSum : Nat → (Nat → Bool) → Bool
  | 0, _ => false
  | n + 1, f => xorSum n f ^^ f n

/-- Bit `p` of row `i` of the matrix; bits past the end of a row are zero. -/
def gbit (G : List (List Byte)) (i p : Nat) : Bool := ((G.getD i []).getD (p / 8) 0).getLsbD (p % 8)

/-- `x` times the matrix. -/
def mulBit (G : List (List Byte)) (x : Block) (p : Nat) : Bool := xorSum 128 fun i => x.getLsbD i && gbit G i p

theorem getLsbD_mkBlock {f : Nat → Bool} {p : Nat} (hp : p < 128) : (mkBlock f).getLsbD p = f p := by
  unfold mkBlock
  rw [BitVec.getLsbD_cast, BitVec.getLsbD_ofBoolListLE]
  simp [List.getD_eq_getElem?_getD, List.getElem?_map, hp]

theorem xorInto_length {t g : List Byte} (h : g.length ≤ t.length) : (xorInto t g).length = t.length := by
  simp only [xorInto, List.length_append, List.length_zipWith, List.length_take, List.length_drop]
  omega

theorem xorInto_getD {t g : List Byte} (h : g.length ≤ t.length) (i : Nat) : (xorInto t g).getD i 0 = t.getD i 0 ^^^ g.getD i 0 := by
  unfold xorInto
  by_cases hi : i < g.length
  · rw [List.getD_eq_getElem?_getD, List.getElem?_append_left (by simp; omega)]
    simp [List.getD_eq_getElem?_getD, List.getElem?_zipWith, List.getElem?_take, hi, List.getElem?_eq_getElem hi,
      List.getElem?_eq_getElem (show i < t.length by omega)]
  · rw [List.getD_eq_getElem?_getD, List.getElem?_append_right (by simp; omega)]
    have e : i - (List.zipWith (· ^^^ ·) (t.take g.length) g).length = i - g.length := by simp; omega
    rw [e]
    simp [List.getD_eq_getElem?_getD, show g.length + (i - g.length) = i by omega, List.getElem?_eq_none (show g.length ≤ i by omega)]

theorem tabRow_fold (Gi : List (List Byte)) (w j n : Nat) (hw : ∀ k, k < 8 → (Gi.getD k []).length ≤ w) (hn : n ≤ 8) :
    let t := (List.range n).foldl (fun t k => if j.testBit k then xorInto t (Gi.getD k []) else t) (List.replicate w (0 : Byte))
    t.length = w ∧ ∀ p, (t.getD (p / 8) 0).getLsbD (p % 8) = xorSum n fun k => j.testBit k && gbit Gi k p := by
  induction n with
  | zero => exact ⟨by simp, fun p => by simp [xorSum, List.getD_eq_getElem?_getD, List.getElem?_replicate]; split <;> simp⟩
  | succ n ih =>
    obtain ⟨h1, h2⟩ := ih (by omega)
    simp only [List.range_succ, List.foldl_append, List.foldl_cons, List.foldl_nil]
    by_cases hb : j.testBit n
    · rw [if_pos hb]
      have hl : (Gi.getD n []).length ≤ _ := (hw n (by omega)).trans (Nat.le_of_eq h1.symm)
      refine ⟨(xorInto_length hl).trans h1, fun p => ?_⟩
      rw [xorInto_getD hl, BitVec.getLsbD_xor, h2, xorSum, hb, Bool.true_and, gbit]
    · rw [if_neg hb]
      refine ⟨h1, fun p => ?_⟩
      rw [h2, xorSum, (by simpa using hb : j.testBit n = false), Bool.false_and, Bool.xor_false]

theorem xorSum_congr {n : Nat} {f g : Nat → Bool} (h : ∀ i, i < n → f i = g i) : xorSum n f = xorSum n g := by
  induction n with
  | zero => rfl
  | succ n ih => rw [xorSum, xorSum, ih fun i hi => h i (by omega), h n (by omega)]

theorem xorSum_xor {n : Nat} {f g : Nat → Bool} : xorSum n (fun i => f i ^^ g i) = (xorSum n f ^^ xorSum n g) := by
  induction n with
  | zero => rfl
  | succ n ih =>
    rw [xorSum, xorSum, xorSum, ih]
    cases xorSum n f <;> cases xorSum n g <;> cases f n <;> cases g n <;> rfl

theorem xorSum_false {n : Nat} : xorSum n (fun _ => false) = false := by
  induction n with
  | zero => rfl
  | succ n ih => rw [xorSum, ih]; rfl

theorem xorSum_add {m n : Nat} {f : Nat → Bool} : xorSum (m + n) f = (xorSum m f ^^ xorSum n fun i => f (m + i)) := by
  induction n with
  | zero => simp [xorSum]
  | succ n ih => rw [← Nat.add_assoc, xorSum, ih, xorSum, Bool.xor_assoc]

theorem xorSum_mul {m n : Nat} {f : Nat → Bool} : xorSum (m * n) f = xorSum m fun a => xorSum n fun k => f (n * a + k) := by
  induction m with
  | zero => simp [xorSum]
  | succ m ih => rw [Nat.succ_mul, xorSum_add, ih, xorSum, Nat.mul_comm m n]

/-- The tables for a matrix. -/
structure TabOk (G : List (List Byte)) (t : List (List (List Byte))) : Prop where
  entry : ∀ i, i < 16 → ∀ v : Byte, ∀ p, p < 128 → (entry t i v).getLsbD p = xorSum 8 fun k => v.getLsbD k && gbit G (8 * i + k) p

theorem tab_ok {G : List (List Byte)} {c : Nat} (hG : G.length = 128) (hc : ∀ r ∈ G, r.length = c) (hc0 : 0 < c) (hc1 : c ≤ 16) :
    TabOk G ((List.range 16).map (subTable G (16 * divCeil c 16))) := by
  have hw : 16 * divCeil c 16 = 16 := by unfold divCeil; omega
  constructor
  intro i hi v p hp
  rw [hw]
  have e1 : ((List.range 16).map (subTable G 16)).getD i [] = subTable G 16 i := by
    simp [List.getD_eq_getElem?_getD, List.getElem?_map, hi]
  rw [entry, e1, blockOfBytes, getLsbD_mkBlock hp]
  have hrow : ∀ k, k < 8 → (((G.drop (8 * i)).take 8).getD k []) = G.getD (8 * i + k) [] := by
    intro k hk
    simp [List.getD_eq_getElem?_getD, List.getElem?_take, hk]
  have hlen : ∀ k, k < 8 → (((G.drop (8 * i)).take 8).getD k []).length ≤ 16 := by
    intro k hk
    rw [hrow k hk]
    have hik : 8 * i + k < G.length := by omega
    rw [List.getD_eq_getElem?_getD, List.getElem?_eq_getElem hik, Option.getD_some, hc _ (List.getElem_mem hik)]
    exact hc1
  have hv := v.isLt
  have e2 : (subTable G 16 i).getD v.toNat [] = tabRow ((G.drop (8 * i)).take 8) 16 v.toNat := by
    unfold subTable
    rcases hz : v.toNat with _ | j
    · show List.replicate 16 0 = _
      have : ∀ n, (List.range n).foldl (fun t k => if (0 : Nat).testBit k then xorInto t (((G.drop (8 * i)).take 8).getD k []) else t)
          (List.replicate 16 (0 : Byte)) = List.replicate 16 0 := by
        intro n
        induction n with
        | zero => rfl
        | succ n ih =>
          rw [List.range_succ, List.foldl_append, ih]
          simp
      exact (this 8).symm
    · rw [hz] at hv
      rw [List.getD_cons_succ]
      simp [List.getD_eq_getElem?_getD, List.getElem?_map, show j < 255 by omega]
  rw [e2]
  have := (tabRow_fold ((G.drop (8 * i)).take 8) 16 v.toNat 8 hlen (by omega)).2 p
  unfold tabRow
  rw [this]
  refine xorSum_congr fun k hk => ?_
  rw [gbit, gbit, hrow k hk]
  rfl

theorem init_tab {G : List (List Byte)} {c : Nat} (hG : G.length = 128) (hc0 : 0 < c) (hc1 : c ≤ 16) :
    init G c = .ok ((List.range 16).map (subTable G (16 * divCeil c 16))) := by
  have hw : divCeil c 16 = 1 := by unfold divCeil; omega
  unfold init generateSubcodes
  rw [hG, hw]
  simp [divCeil]

theorem byteOf_bit {x : Block} {i k : Nat} (hk : k < 8) : (byteOf x i).getLsbD k = x.getLsbD (8 * i + k) := by
  simp [byteOf, BitVec.getLsbD_extractLsb', hk]

theorem entry_byte {G : List (List Byte)} {t : List (List (List Byte))} (h : TabOk G t) {x : Block} {i p : Nat} (hi : i < 16) (hp : p < 128) :
    (entry t i (byteOf x i)).getLsbD p = xorSum 8 fun k => x.getLsbD (8 * i + k) && gbit G (8 * i + k) p := by
  rw [h.entry i hi _ p hp]
  exact xorSum_congr fun k hk => by rw [byteOf_bit hk]

theorem mulBit_bytes {G : List (List Byte)} {x : Block} {p : Nat} :
    mulBit G x p = xorSum 16 fun i => xorSum 8 fun k => x.getLsbD (8 * i + k) && gbit G (8 * i + k) p :=
  xorSum_mul (m := 16) (n := 8)

theorem xor_tree (f : Nat → Bool) :
    (((f 0 ^^ f 8 ^^ (f 4 ^^ f 12)) ^^ (f 2 ^^ f 10 ^^ (f 6 ^^ f 14))) ^^ ((f 1 ^^ f 9 ^^ (f 5 ^^ f 13)) ^^ (f 3 ^^ f 11 ^^ (f 7 ^^ f 15)))) =
      xorSum 16 f := by
  simp only [xorSum, Bool.false_xor]
  generalize f 0 = a0, f 1 = a1, f 2 = a2, f 3 = a3, f 4 = a4, f 5 = a5, f 6 = a6, f 7 = a7
  generalize f 8 = b0, f 9 = b1, f 10 = b2, f 11 = b3, f 12 = b4, f 13 = b5, f 14 = b6, f 15 = b7
  haveI : Std.Commutative Bool.xor := ⟨Bool.xor_comm⟩
  ac_rfl

theorem encode_ok {G : List (List Byte)} {t : List (List (List Byte))} (h : TabOk G t) (x : Block) {p : Nat} (hp : p < 128) :
    (encode t x).getLsbD p = mulBit G x p := by
  rw [mulBit_bytes]
  obtain ⟨f, hf⟩ : ∃ f : Nat → Bool, f = fun i => xorSum 8 fun k => x.getLsbD (8 * i + k) && gbit G (8 * i + k) p := ⟨_, rfl⟩
  have e : ∀ i, i < 16 → (entry t i (byteOf x i)).getLsbD p = f i := fun i hi => (entry_byte h hi hp).trans (congrFun hf i).symm
  have z : (0 : Block).getLsbD p = false := by simp
  simp only [encode, List.range_succ, List.range_zero, List.nil_append, List.cons_append, List.foldl_cons, List.foldl_nil, BitVec.getLsbD_xor]
  simp only [Nat.mul_zero, Nat.zero_add, Nat.mul_one, Nat.reduceAdd, z, Bool.false_xor]
  rw [e 0 (by omega), e 1 (by omega), e 2 (by omega), e 3 (by omega), e 4 (by omega), e 5 (by omega), e 6 (by omega), e 7 (by omega),
    e 8 (by omega), e 9 (by omega), e 10 (by omega), e 11 (by omega), e 12 (by omega), e 13 (by omega), e 14 (by omega), e 15 (by omega),
    ← hf]
  exact xor_tree _

theorem zw_map {α γ δ : Type} (f : γ → α → δ) (g : α → γ) (l : List α) : List.zipWith f (l.map g) l = l.map fun x => f (g x) x := by
  induction l with
  | nil => rfl
  | cons a t ih => simp [ih]

theorem encodeN_fold (t : List (List (List Byte))) (xs : List Block) (n : Nat) :
    (List.range n).foldl (fun c j => List.zipWith (fun c x => c ^^^ entry t (j + 1) (byteOf x (j + 1))) c xs)
      (xs.map fun x => entry t 0 (byteOf x 0)) =
    xs.map fun x => (List.range n).foldl (fun c j => c ^^^ entry t (j + 1) (byteOf x (j + 1))) (entry t 0 (byteOf x 0)) := by
  induction n with
  | zero => rfl
  | succ n ih =>
    simp only [List.range_succ, List.foldl_append, List.foldl_cons, List.foldl_nil]
    rw [ih, zw_map]

theorem encodeN_eq {G : List (List Byte)} {t : List (List (List Byte))} (h : TabOk G t) (xs : List Block) :
    encodeN t xs = xs.map (encode t) := by
  unfold encodeN
  simp only
  rw [encodeN_fold]
  refine List.map_congr_left fun x _ => BitVec.eq_of_getLsbD_eq fun p hp => ?_
  rw [encode_ok h x hp, mulBit_bytes]
  have : ∀ n, n ≤ 15 → ((List.range n).foldl (fun c j => c ^^^ entry t (j + 1) (byteOf x (j + 1))) (entry t 0 (byteOf x 0))).getLsbD p =
      xorSum (n + 1) fun i => xorSum 8 fun k => x.getLsbD (8 * i + k) && gbit G (8 * i + k) p := by
    intro n hn
    induction n with
    | zero => simp only [List.range_zero, List.foldl_nil]; rw [entry_byte h (by omega) hp]; exact (Bool.false_xor _).symm
    | succ n ih =>
      simp only [List.range_succ, List.foldl_append, List.foldl_cons, List.foldl_nil]
      rw [BitVec.getLsbD_xor, ih (by omega), entry_byte h (by omega) hp, ← xorSum]
  exact this 15 (by omega)

/-! ## C49 -/

/-- A matrix with 128 rows of `c` bytes. -/
def Mat (G : List (List Byte)) (c : Nat) : Prop := G.length = 128 ∧ ∀ r ∈ G, r.length = c

/-- C49: a matrix with 128 rows and at most 128 columns is accepted, and then encoding is multiplication, one by one or batched. -/
theorem C49_encode {G : List (List Byte)} {c : Nat} (hG : Mat G c) (hc0 : 0 < c) (hc1 : c ≤ 16) :
    ∃ t, init G c = .ok t ∧ (∀ x p, p < 128 → (encode t x).getLsbD p = mulBit G x p) ∧ ∀ xs, encodeN t xs = xs.map (encode t) :=
  have h := tab_ok hG.1 hG.2 hc0 hc1
  ⟨_, init_tab hG.1 hc0 hc1, fun x _ hp => encode_ok h x hp, encodeN_eq h⟩

/-- C49: the tables have room for every byte, so that encoding reads nothing behind them. -/
theorem C49_tables {G : List (List Byte)} {c : Nat} {t : List (List (List Byte))} (hG : Mat G c) (hc0 : 0 < c) (hc1 : c ≤ 16)
    (ht : init G c = .ok t) : t.length = 16 ∧ ∀ T ∈ t, T.length = 256 ∧ ∀ r ∈ T, r.length = 16 := by
  rw [init_tab hG.1 hc0 hc1] at ht
  cases ht
  have hw : 16 * divCeil c 16 = 16 := by unfold divCeil; omega
  rw [hw]
  refine ⟨by simp, fun T hT => ?_⟩
  obtain ⟨i, hi, rfl⟩ := List.mem_map.1 hT
  rw [List.mem_range] at hi
  refine ⟨by simp [subTable], fun r hr => ?_⟩
  unfold subTable at hr
  rcases List.mem_cons.1 hr with rfl | hr
  · simp
  · obtain ⟨j, _, rfl⟩ := List.mem_map.1 hr
    refine (tabRow_fold _ 16 (j + 1) 8 (fun k hk => ?_) (Nat.le_refl 8)).1
    have hik : 8 * i + k < G.length := by have := hG.1; omega
    have e : ((G.drop (8 * i)).take 8).getD k [] = G.getD (8 * i + k) [] := by simp [List.getD_eq_getElem?_getD, List.getElem?_take, hk]
    rw [e, List.getD_eq_getElem?_getD, List.getElem?_eq_getElem hik, Option.getD_some, hG.2 _ (List.getElem_mem hik)]
    exact hc1

/-- C49: encoding is linear. -/
theorem C49_linear {G : List (List Byte)} {c : Nat} {t : List (List (List Byte))} (hG : Mat G c) (hc0 : 0 < c) (hc1 : c ≤ 16)
    (ht : init G c = .ok t) (x y : Block) : encode t (x ^^^ y) = encode t x ^^^ encode t y := by
  rw [init_tab hG.1 hc0 hc1] at ht
  cases ht
  have h := tab_ok hG.1 hG.2 hc0 hc1
  refine BitVec.eq_of_getLsbD_eq fun p hp => ?_
  rw [BitVec.getLsbD_xor, encode_ok h _ hp, encode_ok h _ hp, encode_ok h _ hp]
  unfold mulBit
  rw [← xorSum_xor]
  refine xorSum_congr fun i _ => ?_
  rw [BitVec.getLsbD_xor, Bool.and_xor_distrib_right]

/-- C49: what is refused: more than one block of output, or another input size, provided that the rows fill whole words. -/
theorem C49_init_throws {G : List (List Byte)} {c : Nat} (h64 : G.length % 64 = 0) (h : 16 < c ∨ c = 0 ∨ G.length ≠ 128) :
    init G c = .error .throw := by
  unfold init generateSubcodes
  by_cases h1 : 64 * 8 < G.length
  · rw [decide_eq_true h1]
    rfl
  · have hn : ¬ (G.length < 8 * (divCeil (divCeil G.length 8) 8 * 8) ∧ 0 < c) := by
      unfold divCeil
      omega
    simp only [decide_eq_false h1, throwIf_false, ok_bind, if_neg hn]
    by_cases h2 : divCeil c 16 = 1
    · have e : (divCeil c 16 != 1) = false := by simpa using h2
      rw [e, throwIf_false, ok_bind, throwIf_ne (by unfold divCeil at h2 ⊢; omega)]
      rfl
    · rw [throwIf_ne h2]
      rfl

/-- C49: with 121 to 127 rows the input has the accepted size of 16 bytes, but the tables are made from memory past the
matrix. So the precondition of 128 rows is needed. -/
theorem C49_rows_ub {G : List (List Byte)} {c : Nat} (h0 : 121 ≤ G.length) (h1 : G.length < 128) (hc : 0 < c) : init G c = .error .ub := by
  unfold init generateSubcodes
  have h : ¬ 64 * 8 < G.length := by omega
  have hn : G.length < 8 * (divCeil (divCeil G.length 8) 8 * 8) ∧ 0 < c := by
    unfold divCeil
    omega
  simp only [decide_eq_false h, throwIf_false, ok_bind, if_pos hn, err_bind]

/-- A matrix with 128 different rows of two bytes. -/
def exMat : List (List Byte) := (List.range 128).map fun i => [BitVec.ofNat 8 i, BitVec.ofNat 8 (i * i + 1)]
example : Mat exMat 2 ∧ 0 < 2 ∧ 2 ≤ 16 := ⟨⟨by simp [exMat], by simp [exMat]⟩, by decide⟩
example : (exMat.drop 5).length = 123 := by simp [exMat]
/-- The rows 0 and 1 are added by the input 3. -/
example : (List.range 16).map (mulBit exMat 3) = [true, false, false, false, false, false, false, false, true, true, false, false, false, false, false, false] := by
  decide +kernel

end F2
end SecJoin
