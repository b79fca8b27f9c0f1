import Verif.Prf.AltMod
import Verif.Prf.F2Props
import Verif.Prf.F3Props
import Verif.Prf.ProtoProps
/-!
# The PRF and its protocol: lemmas
-/
namespace SecJoin
namespace AltMod

open Mod3 (Block trit Valid)
open F2 (TabOk mulBit gbit xorSum)
open F3 (CodeOk sumTo Shape cell dig getD_mapRange)

/-! ## The PRF -/

/-- The binary matrices and the ternary one behind the public codes. -/
structure PubOk (P : Pub) (Gm : Nat → List (List Byte)) (Bm : List (List Byte)) (M : List (List Nat)) : Prop where
  g : ∀ q, q < 3 → TabOk (Gm q) (P.g.getD q [])
  b : TabOk Bm P.b
  a : CodeOk P.a
  n : P.a.n = 256
  k : P.a.k = 512
  m : F3.getMatrix P.a = .ok M

/-- Bit `r` of the expanded input. -/
def expBit (Gm : Nat → List (List Byte)) (x : Block) (r : Nat) : Bool := if r < 128 then x.getLsbD r else mulBit (Gm (r / 128 - 1)) x (r % 128)

/-- Digit `i` of the ternary matrix times a vector of digits. -/
def midDigit (M : List (List Nat)) (h : Nat → Nat) (i : Nat) : Nat := sumTo 512 (fun r => (M.getD i []).getD r 0 * h r) % 3

/-- The digits modulo two; the second half times the matrix is added to the first. -/
def outBit (M : List (List Nat)) (Bm : List (List Byte)) (h : Nat → Nat) (p : Nat) : Bool :=
  decide (midDigit M h p % 2 = 1) ^^ xorSum 128 fun i => decide (midDigit M h (128 + i) % 2 = 1) && gbit Bm i p

/-- The key times the expanded input. -/
def keyed (key : Nat → Bool) (e : Nat → Bool) (r : Nat) : Nat := if key r && e r then 1 else 0

/-- Bit `p` of the PRF. -/
def prfBit (Gm : Nat → List (List Byte)) (M : List (List Nat)) (Bm : List (List Byte)) (key : Nat → Bool) (x : Block) (p : Nat) : Bool :=
  outBit M Bm (keyed key (expBit Gm x)) p

/-! ## Expansion -/

theorem transpose_bit {t : List Block} {i j : Nat} (hi : i < 128) (hj : j < 128) :
    ((transpose128 t).getD j 0).getLsbD i = (t.getD i 0).getLsbD j := by
  rw [transpose128, getD_mapRange hj, F2.getLsbD_mkBlock hi]

theorem groups {α : Type} (m : Nat) (c : List α) (n : Nat) : (List.range n).flatMap (fun w => (c.drop (m * w)).take m) = c.take (m * n) := by
  induction n with
  | zero => simp
  | succ n ih =>
    rw [List.range_succ, List.flatMap_append, ih, Nat.mul_succ, List.take_add]
    simp

theorem encode_zero {G : List (List Byte)} {t : List (List (List Byte))} (h : TabOk G t) : F2.encode t 0 = 0 := by
  refine BitVec.eq_of_getLsbD_eq fun p hp => ?_
  rw [F2.encode_ok h 0 hp, mulBit]
  have : (fun i => (0 : Block).getLsbD i && gbit G i p) = fun _ => false := by
    funext i
    simp
  rw [this, F2.xorSum_false]
  simp

theorem mapPad_getD {f : Block → Block} (hf : f 0 = 0) {c : List Block} (hc : c.length ≤ 128) {i : Nat} :
    (c.map f ++ List.replicate (128 - c.length) 0).getD i 0 = f (c.getD i 0) := by
  by_cases h : i < c.length
  · rw [List.getD_eq_getElem?_getD, List.getElem?_append_left (by simpa using h)]
    simp [List.getD_eq_getElem?_getD, h]
  · rw [List.getD_eq_getElem?_getD, List.getElem?_append_right (by simp; omega)]
    rw [show c.getD i 0 = 0 by simp [List.getD_eq_getElem?_getD, List.getElem?_eq_none (show c.length ≤ i by omega)], hf]
    simp only [List.getElem?_replicate]
    split <;> rfl

/-- Part `q` of the expansion of one block. -/
def expOne (P : Pub) (x : Block) : Nat → Block
  | 0 => x
  | q + 1 => F2.encode (P.g.getD q []) x

theorem expandPart_getD {P : Pub} {Gm : Nat → List (List Byte)} {Bm : List (List Byte)} {M : List (List Nat)} (hP : PubOk P Gm Bm M)
    {c : List Block} (hc : c.length ≤ 128) {q i : Nat} (hq : q < 4) : (expandPart P c q).getD i 0 = expOne P (c.getD i 0) q := by
  cases q with
  | zero =>
    have := mapPad_getD (f := id) rfl hc (i := i)
    simpa [expandPart, expOne] using this
  | succ q =>
    have hg := hP.g q (by omega)
    rw [expandPart, expOne]
    split
    · rename_i h
      have e : ((List.range 16).flatMap fun w => F2.encodeN (P.g.getD q []) ((c.drop (8 * w)).take 8)) = c.map (F2.encode (P.g.getD q [])) := by
        have e1 : (fun w => F2.encodeN (P.g.getD q []) ((c.drop (8 * w)).take 8)) =
            fun w => ((c.drop (8 * w)).take 8).map (F2.encode (P.g.getD q [])) := by
          funext w
          rw [F2.encodeN_eq hg]
        rw [e1, ← List.map_flatMap, groups, List.take_of_length_le (by omega)]
      rw [e]
      have := mapPad_getD (f := F2.encode (P.g.getD q [])) (encode_zero hg) hc (i := i)
      simpa [h] using this
    · exact mapPad_getD (encode_zero hg) hc

theorem chunk_getD {xs : List Block} {k p : Nat} (hp : p < 128) : (chunk xs k).getD p 0 = xs.getD (128 * k + p) 0 := by
  simp [chunk, List.getD_eq_getElem?_getD, hp]

theorem expOne_bit {P : Pub} {Gm : Nat → List (List Byte)} {Bm : List (List Byte)} {M : List (List Nat)} (hP : PubOk P Gm Bm M)
    {x : Block} {r : Nat} (hr : r < 512) : (expOne P x (r / 128)).getLsbD (r % 128) = expBit Gm x r := by
  unfold expBit
  by_cases h : r < 128
  · rw [if_pos h, show r / 128 = 0 by omega, show r % 128 = r by omega]
    rfl
  · rw [if_neg h]
    obtain ⟨q, hq⟩ : ∃ q, r / 128 = q + 1 := ⟨r / 128 - 1, by omega⟩
    rw [hq, expOne, F2.encode_ok (hP.g q (by omega)) _ (by omega)]
    rfl

/-- The matrix of the expanded inputs. -/
def ExpOk (e : List (List Block)) (cols : Nat) (f : Nat → Nat → Bool) : Prop :=
  e.length = 512 ∧ (∀ r, r < 512 → (e.getD r []).length = cols) ∧
    ∀ r, r < 512 → ∀ c, c < cols → ∀ p, p < 128 → ((e.getD r []).getD c 0).getLsbD p = f (128 * c + p) r

theorem expand_ok {P : Pub} {Gm : Nat → List (List Byte)} {Bm : List (List Byte)} {M : List (List Nat)} (hP : PubOk P Gm Bm M)
    (xs : List Block) : ∃ e, expandLinear P xs 512 (divCeil xs.length 128) = .ok e ∧
      ExpOk e (divCeil xs.length 128) fun i => expBit Gm (xs.getD i 0) := by
  refine ⟨_, by rw [expandLinear, bne_self_eq_false, bne_self_eq_false, throwIf_false, ok_bind, ok_bind], by simp, fun r hr => ?_,
    fun r hr c hc p hp => ?_⟩
  · rw [getD_mapRange hr]
    simp
  · rw [getD_mapRange hr, getD_mapRange hc, getD_mapRange (show r / 128 < 4 by omega), getD_mapRange hc, transpose_bit hp (by omega), expandPart_getD hP (by simp [chunk]) (by omega), chunk_getD hp,
      expOne_bit hP hr]

theorem expBit_xor {Gm : Nat → List (List Byte)} {x y : Block} {r : Nat} : expBit Gm (x ^^^ y) r = (expBit Gm x r ^^ expBit Gm y r) := by
  unfold expBit
  split
  · rw [BitVec.getLsbD_xor]
  · unfold mulBit
    rw [← F2.xorSum_xor]
    refine F2.xorSum_congr fun i _ => ?_
    rw [BitVec.getLsbD_xor, Bool.and_xor_distrib_right]

/-! ## The codes -/

/-- All digits of a matrix are valid. -/
def AllValid (st : List (List (Block × Block))) (k len : Nat) : Prop := ∀ i, i < k → ∀ j, j < len → Valid (cell st i j).1 (cell st i j).2

theorem codeA_ok {P : Pub} {Gm : Nat → List (List Byte)} {Bm : List (List Byte)} {M : List (List Nat)} (hP : PubOk P Gm Bm M)
    {ek out : List (List (Block × Block))} {cols : Nat} (hs : Shape ek 512 cols) (ho : Shape out 256 cols) (hv : AllValid ek 512 cols) :
    ∃ u, codeA P ek out cols = .ok u ∧ Shape u 256 cols ∧ AllValid u 256 cols ∧
      ∀ i, i < 256 → ∀ j, j < cols → ∀ p, p < 128 → dig u j p i = midDigit M (dig ek j p) i := by
  obtain ⟨st', u, e1, e2, e3⟩ := F3.C50_slices hP.a (batch := 1024) (by rw [hP.k]; exact hs) (by rw [hP.n]; exact ho) (by omega)
    (by rw [hP.k]; exact hv)
  rw [hP.n] at e2 e3
  refine ⟨u, by rw [codeA, e1]; rfl, e2, fun i hi j hj => (e3 i hi j hj).1, fun i hi j hj p hp => ?_⟩
  obtain ⟨-, g⟩ := e3 i hi j hj
  obtain ⟨x', y, y1, y2⟩ := g p hp
  have hlen : (F3.digits ek j p).length = P.a.k := by rw [F3.digits, List.length_map, List.length_range, hs.1, hP.k]
  obtain ⟨x2, y', M', z1, z2, z3, z4, z5, z6, z7⟩ := F3.C50_matrix hP.a hlen
  rw [hP.m] at z2
  rw [hP.n] at z1
  cases z2
  rw [y1] at z1
  cases z1
  have hd : ∀ r, r < 512 → (F3.digits ek j p).getD r 0 = dig ek j p r := by
    intro r hr
    rw [F3.digits, getD_mapRange (by rw [hs.1]; exact hr)]
  have hlt := z7 (fun r hr => by
    rw [hP.k] at hr
    rw [hd r hr]
    exact hv r hr j hj p hp) i (by rw [hP.n]; exact hi)
  have hm := z6 i (by rw [hP.n]; exact hi)
  rw [Nat.mod_eq_of_lt hlt, hP.k] at hm
  have hx : sumTo 512 (fun r => (M.getD i []).getD r 0 * (F3.digits ek j p).getD r 0) = sumTo 512 (fun r => (M.getD i []).getD r 0 * dig ek j p r) :=
    F3.sumTo_congr fun r hr => by rw [hd r hr]
  rw [y2, hm, midDigit, hx]

theorem column_bit {v : List (List Block)} {b ii i j : Nat} (hi : i < 128) (hj : j < 128) :
    ((transpose128 (column v b ii)).getD i 0).getLsbD j = ((v.getD (b + j) []).getD ii 0).getLsbD i := by
  rw [transpose_bit hj hi, column, getD_mapRange hj]

theorem compress_ok {P : Pub} {Gm : Nat → List (List Byte)} {Bm : List (List Byte)} {M : List (List Nat)} (hP : PubOk P Gm Bm M)
    {v : List (List Block)} {n : Nat} (hv : v.length = 256) (hw : ∀ r ∈ v, r.length = divCeil n 128) :
    ∃ y, compressB P v n = .ok y ∧ y.length = n ∧ ∀ i, i < n → ∀ p, p < 128 → (y.getD i 0).getLsbD p =
      (((v.getD p []).getD (i / 128) 0).getLsbD (i % 128) ^^
        xorSum 128 fun t => ((v.getD (128 + t) []).getD (i / 128) 0).getLsbD (i % 128) && gbit Bm t p) := by
  have a : (v.any fun r => r.length != divCeil n 128) = false := by
    rw [List.any_eq_false]
    intro r hr
    simpa using hw r hr
  refine ⟨_, by rw [compressB, hv, bne_self_eq_false, a, throwIf_false, ok_bind, ok_bind], by simp, fun i hi p hp => ?_⟩
  have hq : i / 128 < divCeil n 128 := by unfold divCeil; omega
  rw [getD_mapRange hi, getD_mapRange hq, getD_mapRange hq, BitVec.getLsbD_xor, column_bit (by omega) hp, F2.encode_ok hP.b _ hp, Nat.zero_add, mulBit]
  have hx : xorSum 128 (fun t => ((transpose128 (column v 128 (i / 128))).getD (i % 128) 0).getLsbD t && gbit Bm t p) =
      xorSum 128 (fun t => ((v.getD (128 + t) []).getD (i / 128) 0).getLsbD (i % 128) && gbit Bm t p) :=
    F2.xorSum_congr fun t ht => by rw [column_bit (by omega) ht]
  rw [hx]

/-! ## Matrices in memory -/

theorem flatten_getD {α : Type} (d : α) {rows cols : Nat} (l : List (List α)) (hl : l.length = rows) (hc : ∀ r, r < rows → (l.getD r []).length = cols) :
    l.flatten.length = rows * cols ∧ ∀ r, r < rows → ∀ c, c < cols → l.flatten.getD (r * cols + c) d = (l.getD r []).getD c d := by
  induction l generalizing rows with
  | nil =>
    subst hl
    exact ⟨by simp, fun r hr => absurd hr (by simp)⟩
  | cons a l ih =>
    obtain ⟨n, rfl⟩ : ∃ n, rows = n + 1 := ⟨l.length, hl.symm⟩
    have ha : a.length = cols := hc 0 (by omega)
    obtain ⟨i1, i2⟩ := ih (rows := n) (by simpa using hl) (fun r hr => hc (r + 1) (by omega))
    refine ⟨by rw [List.flatten_cons, List.length_append, i1, ha, Nat.succ_mul]; omega, fun r hr c hcc => ?_⟩
    rw [List.flatten_cons]
    cases r with
    | zero =>
      rw [Nat.zero_mul, Nat.zero_add, List.getD_eq_getElem?_getD, List.getElem?_append_left (by omega)]
      rfl
    | succ r =>
      rw [List.getD_eq_getElem?_getD, Nat.succ_mul, List.getElem?_append_right (by omega),
        show r * cols + cols + c - a.length = r * cols + c by omega, ← List.getD_eq_getElem?_getD, i2 r (by omega) c hcc]
      rfl

theorem rowsOf_shape {α : Type} {rows cols : Nat} {l : List α} (hl : l.length = rows * cols) :
    (rowsOf rows cols l).length = rows ∧ ∀ r, r < rows → ((rowsOf rows cols l).getD r []).length = cols := by
  refine ⟨by simp [rowsOf], fun r hr => ?_⟩
  rw [rowsOf, getD_mapRange hr, List.length_take, List.length_drop, hl]
  have : r * cols + cols ≤ rows * cols := by
    rw [← Nat.succ_mul]
    exact Nat.mul_le_mul_right _ hr
  omega

theorem rowsOf_getD {α : Type} {rows cols : Nat} {l : List α} {d : α} {r c : Nat} (hr : r < rows) (hc : c < cols) :
    ((rowsOf rows cols l).getD r []).getD c d = l.getD (r * cols + c) d := by
  rw [rowsOf, getD_mapRange hr]
  simp [List.getD_eq_getElem?_getD, hc]

theorem idx_split {rows cols i : Nat} (h : i < rows * cols) : i / cols < rows ∧ i % cols < cols ∧ i = i / cols * cols + i % cols := by
  have hc : 0 < cols := by
    rcases Nat.eq_zero_or_pos cols with h0 | h0
    · subst h0
      simp at h
    · exact h0
  refine ⟨(Nat.div_lt_iff_lt_mul hc).2 h, Nat.mod_lt _ hc, ?_⟩
  rw [Nat.mul_comm]
  exact (Nat.div_add_mod i cols).symm

/-! ## The end of the protocol -/

/-- Valid correlations. For OLEs all pieces have an even number of blocks, see C53. -/
def Mod2Cor.Ok : Mod2Cor → Prop
  | ole s r => SegsOk OleOk s r ∧ ∀ p ∈ r, p.length % 2 = 0
  | f4 s r => SegsOk F4Ok s r

/-- The request has the right size. -/
def Mod2Cor.Sized (n : Nat) : Mod2Cor → Prop
  | ole _ r => reqBits r = divCeil n 128 * 128 * 256 * 2
  | f4 _ r => reqBits r = divCeil n 128 * 128 * 256

theorem Mod2Cor.check_ok {cor : Mod2Cor} {n : Nat} (h : cor.Ok) (hs : cor.Sized n) : cor.check n = .ok () := by
  cases cor with
  | ole s r =>
    have e : reqBits s = reqBits r := sum_reqBits h.1
    have hs : reqBits r = divCeil n 128 * 128 * 256 * 2 := hs
    rw [Mod2Cor.check, e, hs, bne_self_eq_false, throwIf_false, ok_bind]
  | f4 s r =>
    have e : reqBits s = reqBits r := sum_reqBits h
    have hs : reqBits r = divCeil n 128 * 128 * 256 := hs
    rw [Mod2Cor.check, e, hs, bne_self_eq_false, throwIf_false, ok_bind]

theorem Mod2Cor.run_ok {cor : Mod2Cor} {n : Nat} (h : cor.Ok) (hs : cor.Sized n) {v u : List (Block × Block)} (hv : v.length = u.length)
    (hu : u.length = 256 * divCeil n 128) (hd : DigitsOk v u) : ∃ z0 z1, cor.run v u = .ok (z0, z1) ∧ Mod2Spec v u z0 z1 := by
  cases cor with
  | ole s r =>
    have hs : reqBits r = divCeil n 128 * 128 * 256 * 2 := hs
    exact C53_ole_partial h.1 h.2 hv (by rw [hs, hu]; omega) hd
  | f4 s r =>
    have hs : reqBits r = divCeil n 128 * 128 * 256 := hs
    exact C53_f4 h hv (by rw [hs, hu]; omega) hd

theorem midDigit_lt {M : List (List Nat)} {h : Nat → Nat} {i : Nat} : midDigit M h i < 3 := Nat.mod_lt _ (by omega)

theorem midDigit_add {M : List (List Nat)} {f g h : Nat → Nat} {i : Nat} (hh : ∀ r, r < 512 → (f r + g r) % 3 = h r % 3) :
    (midDigit M f i + midDigit M g i) % 3 = midDigit M h i := by
  unfold midDigit
  rw [← Nat.add_mod, ← F3.sumTo_add]
  refine F3.sumTo_mod fun r hr => ?_
  rw [← Nat.mul_add, Nat.mul_mod, hh r hr, ← Nat.mul_mod]

theorem finish_ok {P : Pub} {Gm : Nat → List (List Byte)} {Bm : List (List Byte)} {M : List (List Nat)} (hP : PubOk P Gm Bm M)
    {cor : Mod2Cor} {n : Nat} (hc : cor.Ok) (hcs : cor.Sized n) {ekS ekR outS outR : List (List (Block × Block))}
    (sS : Shape ekS 512 (divCeil n 128)) (sR : Shape ekR 512 (divCeil n 128)) (oS : Shape outS 256 (divCeil n 128))
    (oR : Shape outR 256 (divCeil n 128)) (vS : AllValid ekS 512 (divCeil n 128)) (vR : AllValid ekR 512 (divCeil n 128))
    {H : Nat → Nat → Nat} (hH : ∀ r, r < 512 → ∀ c, c < divCeil n 128 → ∀ p, p < 128 → (dig ekS c p r + dig ekR c p r) % 3 = H (128 * c + p) r % 3) :
    ∃ yS yR, finish P cor n ekS ekR outS outR = .ok (yS, yR) ∧ yS.length = n ∧ yR.length = n ∧
      ∀ i, i < n → ∀ p, p < 128 → ((yS.getD i 0).getLsbD p ^^ (yR.getD i 0).getLsbD p) = outBit M Bm (H i) p := by
  obtain ⟨cols, hcols⟩ : ∃ cols, cols = divCeil n 128 := ⟨_, rfl⟩
  rw [← hcols] at sS sR oS oR vS vR hH
  obtain ⟨uS, a1, a2, a3, a4⟩ := codeA_ok hP sS oS vS
  obtain ⟨uR, b1, b2, b3, b4⟩ := codeA_ok hP sR oR vR
  obtain ⟨fS1, fS2⟩ := flatten_getD ((0 : Block), (0 : Block)) uS a2.1 a2.2
  obtain ⟨fR1, fR2⟩ := flatten_getD ((0 : Block), (0 : Block)) uR b2.1 b2.2
  have hd : DigitsOk uS.flatten uR.flatten := by
    intro i hi
    rw [fR1] at hi
    obtain ⟨h1, h2, h3⟩ := idx_split hi
    rw [h3, fS2 _ h1 _ h2, fR2 _ h1 _ h2]
    exact ⟨a3 _ h1 _ h2, b3 _ h1 _ h2⟩
  obtain ⟨z0, z1, m1, m2, m3, m4⟩ := Mod2Cor.run_ok hc hcs (fS1.trans fR1.symm) (by rw [fR1, hcols]) hd
  rw [fR1] at m2 m3 m4
  have hz : ∀ i, i < 256 → ∀ c, c < cols → ∀ p, p < 128 →
      ((((rowsOf 256 cols z0).getD i []).getD c 0).getLsbD p ^^ (((rowsOf 256 cols z1).getD i []).getD c 0).getLsbD p) =
        decide (midDigit M (H (128 * c + p)) i % 2 = 1) := by
    intro i hi c hcc p hp
    have hlt : i * cols + c < 256 * cols := by
      have : i * cols + cols ≤ 256 * cols := by
        rw [← Nat.succ_mul]
        exact Nat.mul_le_mul_right _ hi
      omega
    rw [rowsOf_getD hi hcc, rowsOf_getD hi hcc, m4 _ hlt p hp, fS2 i hi c hcc, fR2 i hi c hcc]
    have e1 : trit ((uS.getD i []).getD c (0, 0)).1 ((uS.getD i []).getD c (0, 0)).2 p = midDigit M (dig ekS c p) i := a4 i hi c hcc p hp
    have e2 : trit ((uR.getD i []).getD c (0, 0)).1 ((uR.getD i []).getD c (0, 0)).2 p = midDigit M (dig ekR c p) i := b4 i hi c hcc p hp
    rw [e1, e2, midDigit_add (h := H (128 * c + p)) fun r hr => hH r hr c hcc p hp]
    have := midDigit_lt (M := M) (h := H (128 * c + p)) (i := i)
    generalize midDigit M (H (128 * c + p)) i = t at *
    have : t = 0 ∨ t = 1 ∨ t = 2 := by omega
    rcases this with rfl | rfl | rfl <;> rfl
  have rows : ∀ z : List Block, z.length = 256 * cols → ∀ r ∈ rowsOf 256 cols z, r.length = divCeil n 128 := by
    intro z hzl r hr
    obtain ⟨s1, s2⟩ := rowsOf_shape hzl
    obtain ⟨i, hi, rfl⟩ := List.getElem_of_mem hr
    have := s2 i (by rw [← s1]; exact hi)
    rw [List.getD_eq_getElem?_getD, List.getElem?_eq_getElem hi, Option.getD_some] at this
    rw [this, hcols]
  obtain ⟨yS, c1, c2, c3⟩ := compress_ok hP (n := n) (rowsOf_shape m2).1 (rows z0 m2)
  obtain ⟨yR, d1, d2, d3⟩ := compress_ok hP (n := n) (rowsOf_shape m3).1 (rows z1 m3)
  refine ⟨yS, yR, ?_, c2, d2, fun i hi p hp => ?_⟩
  · unfold finish
    rw [← hcols, a1, ok_bind, b1, ok_bind, m1, ok_bind]
    simp only
    rw [c1, ok_bind, d1, ok_bind]
  · have hic : i / 128 < cols := by
      rw [hcols]
      unfold divCeil
      omega
    have hi2 : 128 * (i / 128) + i % 128 = i := Nat.div_add_mod i 128
    have hb := fun q (hq : q < 256) => hz q hq (i / 128) hic (i % 128) (Nat.mod_lt _ (by omega))
    rw [hi2] at hb
    rw [c3 i hi p hp, d3 i hi p hp, outBit, ← hb p (by omega)]
    have hx : xorSum 128 (fun t => decide (midDigit M (H i) (128 + t) % 2 = 1) && gbit Bm t p) =
        xorSum 128 (fun t => (((rowsOf 256 cols z0).getD (128 + t) []).getD (i / 128) 0).getLsbD (i % 128) && gbit Bm t p ^^
          (((rowsOf 256 cols z1).getD (128 + t) []).getD (i / 128) 0).getLsbD (i % 128) && gbit Bm t p) :=
      F2.xorSum_congr fun t ht => by rw [← hb (128 + t) (by omega), Bool.and_xor_distrib_right]
    rw [hx, F2.xorSum_xor]
    generalize xorSum 128 (fun t => (((rowsOf 256 cols z0).getD (128 + t) []).getD (i / 128) 0).getLsbD (i % 128) && gbit Bm t p) = w0
    generalize xorSum 128 (fun t => (((rowsOf 256 cols z1).getD (128 + t) []).getD (i / 128) 0).getLsbD (i % 128) && gbit Bm t p) = w1
    generalize (((rowsOf 256 cols z0).getD p []).getD (i / 128) 0).getLsbD (i % 128) = w2
    generalize (((rowsOf 256 cols z1).getD p []).getD (i / 128) 0).getLsbD (i % 128) = w3
    cases w0 <;> cases w1 <;> cases w2 <;> cases w3 <;> rfl

end AltMod
end SecJoin
