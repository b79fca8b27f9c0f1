import Verif.Cor.F4VoleLemmas
/-!
# The silent VOLE over the field of four elements: C73
-/
namespace SecJoin
namespace F4Vole

open F4 (Block elem selem gadd gmul GF4 block_ext)
open Cor (maskTwo maskTwo_elem RawF4 bitAt choiceNum f4Send f4Recv)

/-! ## Specification -/

/-- One correlation: outside of the element that carries the choice, `a = b + delta * c`. -/
def Vole (delta a b : Block) (c : GF4) : Prop := ∀ k, 0 < k → k < 64 → elem a k = gadd (elem b k) (gmul (elem delta k) c)

/-- Two parties set up alike: same request and parameters, a supported code, no malicious security; points of the punctured PRF that
are distinct and inside the vector; scalars that are scalars. -/
structure Ready (s : Sender) (r : Receiver) : Prop where
  confS : s.configured = true
  confR : r.configured = true
  par : s.par = r.par
  req : s.req = r.req
  mult : s.mult = r.mult
  code : r.mult ≠ .other
  honestS : s.malicious = false
  honestR : r.malicious = false
  distinct : r.points.Nodup
  points : r.points.length = r.par.parts
  inside : ∀ p ∈ r.points, p < r.par.noise
  vals : r.baseC.length = r.par.parts
  scalars : ∀ c ∈ r.baseC, c.toNat < 4
  fits : r.req ≤ r.par.noise

/-- They hold valid base correlations, with the first element cleared. -/
structure Based (delta : Block) (s : Sender) (r : Receiver) : Prop extends Ready s r where
  hasS : s.hasBase = true
  hasR : r.hasBase = true
  lenA : r.baseA.length = r.par.parts
  lenB : s.baseB.length = r.par.parts
  lowA : ∀ x ∈ r.baseA, elem x 0 = (false, false)
  lowB : ∀ x ∈ s.baseB, elem x 0 = (false, false)
  vole : ∀ i, i < r.par.parts → Vole delta (r.baseA.getD i 0) (s.baseB.getD i 0) (selem (r.baseC.getD i 0))

/-- The noise vector of a receiver: its scalars in element 0 at its points, zero elsewhere. -/
def IsNoise (r : Receiver) (C : List Block) : Prop :=
  C.length = r.par.noise ∧ (∀ i, i < r.par.parts → elem (C.getD (r.points.getD i 0) 0) 0 = selem (r.baseC.getD i 0)) ∧
    ∀ p, p ∉ r.points → elem (C.getD p 0) 0 = (false, false)

/-! ## Proofs -/

theorem getD_low {l : List Block} (h : ∀ x ∈ l, elem x 0 = (false, false)) (i : Nat) : elem (l.getD i 0) 0 = (false, false) := by
  by_cases hi : i < l.length
  · rw [getD_rd hi]; exact h _ (List.getElem_mem hi)
  · rw [List.getD_eq_getElem?_getD, List.getElem?_eq_none (Nat.not_lt.1 hi)]; exact elem_zero 0

theorem leaves_low (W : Nat → Block) (n p : Nat) : elem ((leaves W n).getD p 0) 0 = (false, false) := by
  apply getD_low
  intro x hx
  obtain ⟨j, -, rfl⟩ := List.mem_map.1 hx
  exact (F4.C46_fromBlock (W j)).2.2.1

theorem firstN_all {α : Type} {l : List α} {n : Nat} (h : l.length = n) : firstN l n = .ok l := by
  rw [firstN, if_neg (by omega), ← h, List.take_length]

/-- The sparse vectors: related at every position, and the receiver's carries the noise. -/
theorem sparse_ok {delta : Block} {s : Sender} {r : Receiver} (h : Based delta s r) (W : Nat → Block) :
    ∃ A B, sparse s r W = .ok (A, B) ∧ A.length = r.par.noise ∧ B.length = r.par.noise ∧
      (∀ p, p < r.par.noise → Vole delta (A.getD p 0) (B.getD p 0) (elem (A.getD p 0) 0)) ∧ IsNoise r A := by
  have lB : (leaves W s.par.noise).length = r.par.noise := by simp [leaves, h.par]
  have hp : s.par.parts = r.par.parts := by rw [h.par]
  have l1 : r.points.length = s.baseB.length := by rw [h.points, h.lenB]
  have l2 : r.points.length = r.baseA.length := by rw [h.points, h.lenA]
  have l3 : r.points.length = r.baseC.length := by rw [h.points, h.vals]
  obtain ⟨A1, e1, n1, u1, v1⟩ := addAt_ok (l := r.points.zip s.baseB) (m := leaves W s.par.noise) (by rw [zip_fst l1]; exact h.distinct)
    (fun q hq => by rw [lB]; exact h.inside _ (List.of_mem_zip hq).1)
  obtain ⟨A2, e2, n2, u2, v2⟩ := addAt_ok (l := r.points.zip r.baseA) (m := A1) (by rw [zip_fst l2]; exact h.distinct)
    (fun q hq => by rw [n1, lB]; exact h.inside _ (List.of_mem_zip hq).1)
  obtain ⟨A3, e3, n3, u3, v3⟩ := orAt_ok (l := r.points.zip r.baseC) (m := A2) (by rw [zip_fst l3]; exact h.distinct)
    (fun q hq => by rw [n2, n1, lB]; exact h.inside _ (List.of_mem_zip hq).1)
  rw [zip_fst l1] at v1
  rw [zip_fst l2] at v2
  rw [zip_fst l3] at v3
  -- at a point
  have pt : ∀ i, i < r.par.parts → A2.getD (r.points.getD i 0) 0 =
      ((leaves W s.par.noise).getD (r.points.getD i 0) 0 ^^^ s.baseB.getD i 0) ^^^ r.baseA.getD i 0 ∧
      A3.getD (r.points.getD i 0) 0 = A2.getD (r.points.getD i 0) 0 ||| (r.baseC.getD i 0).setWidth 128 := by
    intro i hi
    have i0 : i < r.points.length := by rw [h.points]; exact hi
    have i1 : i < s.baseB.length := by rw [h.lenB]; exact hi
    have i2 : i < r.baseA.length := by rw [h.lenA]; exact hi
    have i3 : i < r.baseC.length := by rw [h.vals]; exact hi
    have ep : r.points.getD i 0 = r.points[i] := by simp [List.getD_eq_getElem?_getD, i0]
    have ec : r.baseC.getD i 0 = r.baseC[i] := by simp [List.getD_eq_getElem?_getD, i3]
    rw [ep, ec, getD_rd i1, getD_rd i2]
    exact ⟨by rw [u2 _ (zip_mem i0 i2), u1 _ (zip_mem i0 i1)], u3 _ (zip_mem i0 i3)⟩
  have low2 : ∀ p, elem (A2.getD p 0) 0 = (false, false) := by
    intro p
    by_cases hm : p ∈ r.points
    · obtain ⟨i, hi, rfl⟩ := List.getElem_of_mem hm
      have ep : r.points[i] = r.points.getD i 0 := by simp [List.getD_eq_getElem?_getD, hi]
      rw [ep, (pt i (by rw [← h.points]; exact hi)).1, elem_xor, elem_xor, leaves_low, getD_low h.lowA, getD_low h.lowB]; rfl
    · rw [v2 p hm, v1 p hm, leaves_low]
  have hany : A2.any (fun x => x.setWidth 64 &&& 3 != 0) = false := by
    rw [List.any_eq_false]
    intro x hx
    obtain ⟨i, hi, rfl⟩ := List.getElem_of_mem hx
    have := low_zero (low2 i)
    rw [getD_rd hi] at this
    show ¬ (A2[i].setWidth 64 &&& 3 != 0) = true
    rw [this]; decide
  refine ⟨A3, leaves W s.par.noise, ?_, by rw [n3, n2, n1, lB], lB, ?_, by rw [n3, n2, n1, lB], ?_, ?_⟩
  · simp only [sparse, hp, firstN_all h.lenB, firstN_all h.points, firstN_all h.lenA, firstN_all h.vals, ok_bind, e1, e2, hany, e3,
      Bool.false_eq_true, if_false]
  · intro p hp k k0 hk
    by_cases hm : p ∈ r.points
    · obtain ⟨i, hi, rfl⟩ := List.getElem_of_mem hm
      have hi' : i < r.par.parts := by rw [← h.points]; exact hi
      have ep : r.points[i] = r.points.getD i 0 := by simp [List.getD_eq_getElem?_getD, hi]
      have hc : (r.baseC.getD i 0).toNat < 4 := by
        have i3 : i < r.baseC.length := by rw [h.vals]; exact hi'
        have ec : r.baseC.getD i 0 = r.baseC[i] := by simp [List.getD_eq_getElem?_getD, i3]
        rw [ec]; exact h.scalars _ (List.getElem_mem _)
      rw [ep, (pt i hi').2, elem_or_scalar (low2 _) hc hk, elem_or_scalar (low2 _) hc (by omega), if_neg (by omega), if_pos rfl, (pt i hi').1,
        elem_xor, elem_xor, h.vole i hi' k k0 hk, gadd_assoc, ← gadd_assoc (elem (s.baseB.getD i 0) k), gadd_self,
        gadd_comm (false, false), gadd_zero]
    · rw [v3 p hm, low2, v2 p hm, v1 p hm, gmul_zero, gadd_zero]
  · intro i hi
    have hc : (r.baseC.getD i 0).toNat < 4 := by
      have i3 : i < r.baseC.length := by rw [h.vals]; exact hi
      have ec : r.baseC.getD i 0 = r.baseC[i] := by simp [List.getD_eq_getElem?_getD, i3]
      rw [ec]; exact h.scalars _ (List.getElem_mem _)
    rw [(pt i hi).2, elem_or_scalar (low2 _) hc (by omega), if_pos rfl]
  · intro p hm
    rw [v3 p hm, low2]

/-- The relation of the correlation is kept by the operations of the code. -/
theorem kept_vole (w : Bool) (delta : Block) : Kept w fun a b => Vole delta a b (elem a 0) where
  zero := fun k _ _ => by rw [elem_zero, elem_zero, gmul_zero]; rfl
  plus := fun {a b a' b'} h h' k k0 hk => by
    rw [elem_xor, elem_xor, elem_xor, h k k0 hk, h' k k0 hk, gmul_gadd]
    simp only [gadd_assoc]
    rw [← gadd_assoc (gmul _ _) (elem b' k), gadd_comm (gmul _ _) (elem b' k), gadd_assoc]
  const := fun {a b a' b'} h ea eb k k0 hk => by
    obtain ⟨y, e, f⟩ := mulConst_ok w a
    obtain ⟨z, e', f'⟩ := mulConst_ok w b
    rw [e] at ea; rw [e'] at eb
    cases ea; cases eb
    rw [f k hk, f' k hk, f 0 (by omega), h k k0 hk, gmul_comm (gadd _ _), gmul_gadd, gmul_comm (selem 3), gmul_comm (selem 3), gmul_assoc]

/-- Element 0 of a codeword depends on element 0 of the vector only. -/
theorem kept_zero (w : Bool) : Kept w fun a b => elem a 0 = elem b 0 where
  zero := rfl
  plus := fun h h' => by rw [elem_xor, elem_xor, h, h']
  const := fun {a b a' b'} h ea eb => by
    obtain ⟨y, e, f⟩ := mulConst_ok w a
    obtain ⟨z, e', f'⟩ := mulConst_ok w b
    rw [e] at ea; rw [e'] at eb
    cases ea; cases eb
    rw [f 0 (by omega), f' 0 (by omega), h]

/-! ## C73 -/

/-- **C73** (expansion). Parties with valid base correlations both end, for every leaf of the punctured PRF and every linear code; they
hold as many correlations as configured and each is valid. The receiver's choices are the codeword of its noise vector. -/
theorem C73_silent (w : Bool) {delta : Block} {s : Sender} {r : Receiver} (h : Based delta s r) {n : Nat} (hn : n ≤ r.req) (W : Nat → Block)
    {temp : Nat} {ops : List EncOp} (hi : ∀ op ∈ ops, op.inside (r.par.noise + temp)) :
    ∃ A B, silentInplace w s r n W temp ops = .ok (A, B) ∧ silent w s r n W temp ops = .ok (A.take n, B.take n) ∧
      A.length = r.req ∧ RawF4 delta A B ∧
      ∀ C, IsNoise r C → ∃ C', encode w r.mult temp ops r.req C = .ok C' ∧
        ∀ p, p < r.req → elem (A.getD p 0) 0 = elem (C'.getD p 0) 0 := by
  obtain ⟨A0, B0, e0, lA, lB, hv, hnoise⟩ := sparse_ok h W
  obtain ⟨A, eA, nA⟩ := encode_ok w h.code (temp := temp) (ops := ops) (a := A0) (req := r.req) (by rw [lA]; exact h.fits) (by rw [lA]; exact hi)
  obtain ⟨B, eB, nB⟩ := encode_ok w h.code (temp := temp) (ops := ops) (a := B0) (req := r.req) (by rw [lB]; exact h.fits) (by rw [lB]; exact hi)
  have e1 : silentInplace w s r n W temp ops = .ok (A, B) := by
    have q1 : (decide (s.req < n) || decide (r.req < n)) = false := by simp [h.req]; omega
    simp only [silentInplace, h.confS, h.confR, h.hasS, h.hasR, h.honestS, h.honestR, q1, Bool.not_true, Bool.or_false, throwIf_false, ok_bind, e0]
    rw [h.mult, h.req, eB, ok_bind, eA, ok_bind]
  have hk := encode_kept (kept_vole w delta) (a := A0) (b := B0) ⟨by rw [lA, lB], fun p hp => hv p (by rw [← lA]; exact hp)⟩ (by rw [lA]; exact hi) eA eB
  refine ⟨A, B, e1, by simp only [silent, e1, ok_bind], nA, ⟨by rw [nA, nB], fun p hp k k0 hk' => hk.2 p hp k k0 hk'⟩, ?_⟩
  intro C hC
  obtain ⟨C', eC, nC⟩ := encode_ok w h.code (temp := temp) (ops := ops) (a := C) (req := r.req) (by rw [hC.1]; exact h.fits) (by rw [hC.1]; exact hi)
  refine ⟨C', eC, fun p hp => ?_⟩
  refine (encode_kept (kept_zero w) (a := A0) (b := C) ⟨by rw [lA, hC.1], fun q _ => ?_⟩ (by rw [lA]; exact hi) eA eC).2 p (by rw [nA]; exact hp)
  show elem (A0.getD q 0) 0 = elem (C.getD q 0) 0
  by_cases hm : q ∈ r.points
  · obtain ⟨i, hi, rfl⟩ := List.getElem_of_mem hm
    have ep : r.points[i] = r.points.getD i 0 := by simp [List.getD_eq_getElem?_getD, hi]
    rw [ep, hnoise.2.1 i (by rw [← h.points]; exact hi), hC.2.1 i (by rw [← h.points]; exact hi)]
  · rw [hnoise.2.2 q hm, hC.2.2 q hm]

/-- **C73** (setting base correlations). Valid base correlations of the right number, whatever their first element, are accepted and
leave both parties ready for the expansion. -/
theorem C73_base {delta : Block} {s : Sender} {r : Receiver} (h : Ready s r) {a b : List Block} (ha : a.length = r.par.parts)
    (hb : b.length = r.par.parts) (hv : ∀ i, i < r.par.parts → Vole delta (a.getD i 0) (b.getD i 0) (selem (r.baseC.getD i 0))) :
    ∃ s' r', s.setBase r.par.baseOts b = .ok s' ∧ r.setBase r.par.baseOts a = .ok r' ∧ Based delta s' r' ∧ r'.req = r.req ∧ r'.par = r.par ∧
      r'.baseC = r.baseC ∧ r'.points = r.points := by
  have low : ∀ x : Block, elem (x &&& maskTwo) 0 = (false, false) := fun x => by rw [maskTwo_elem x (by omega), if_pos rfl]
  have c1 : (r.par.baseOts != s.par.baseOts) = false := by simp [h.par]
  have c2 : (b.length != s.baseVoleCount) = false := by simp [Sender.baseVoleCount, h.honestS, hb, h.par]
  have mp : ∀ (l : List Block) (f : Block → Block), f 0 = 0 → ∀ i, (l.map f).getD i 0 = f (l.getD i 0) := by
    intro l f f0 i
    simp only [List.getD_eq_getElem?_getD, List.getElem?_map]
    cases l[i]? with
    | none => exact f0.symm
    | some x => rfl
  refine ⟨{ s with hasBase := true, baseB := b.map fun x => ((0 : Block) ^^^ x) &&& maskTwo },
    { r with hasBase := true, baseA := a.map fun x => x &&& maskTwo }, ?_, ?_, ?_, rfl, rfl, rfl, rfl⟩
  · simp only [Sender.setBase, h.confS, c1, c2, Bool.not_true, throwIf_false, ok_bind]
  · simp only [Receiver.setBase, h.confR, Bool.not_true, throwIf_false, ok_bind, bne_self_eq_false]
  · exact {
      confS := h.confS, confR := h.confR, par := h.par, req := h.req, mult := h.mult, code := h.code, honestS := h.honestS, honestR := h.honestR
      distinct := h.distinct, points := h.points, inside := h.inside, vals := h.vals, scalars := h.scalars, fits := h.fits
      hasS := rfl, hasR := rfl
      lenA := by simpa using ha
      lenB := by simpa using hb
      lowA := fun x hx => by
        obtain ⟨y, -, rfl⟩ := List.mem_map.1 hx
        exact low y
      lowB := fun x hx => by
        obtain ⟨y, -, rfl⟩ := List.mem_map.1 hx
        exact low _
      vole := fun i hi k k0 hk => by
        simp only [mp a (fun x => x &&& maskTwo) (by simp), mp b (fun x => ((0 : Block) ^^^ x) &&& maskTwo) (by simp)]
        rw [maskTwo_elem _ hk, maskTwo_elem _ hk, if_neg (by omega), if_neg (by omega), show (0 : Block) ^^^ b.getD i 0 = b.getD i 0 by simp]
        exact hv i hi k k0 hk }

/-! ### Chosen values -/

/-- Two bits of a byte of the message. -/
def field (x : BitVec 8) (j : Nat) : BitVec 8 := (x >>> (2 * j)) &&& 3

theorem field_or : ∀ d ∈ [(0 : BitVec 8), 1, 2, 3], ∀ j < 4, ∀ j' < 4, ∀ x : BitVec 8,
    field (x ||| (d <<< (j * 2))) j' = if j' = j then field x j ||| d else field x j' := by decide +kernel

theorem foldl_range {α : Type} {f : α → Nat × Nat → Res α} {P : Nat → α → Prop} {n : Nat}
    (step : ∀ t, t < n → ∀ a, P t a → ∃ a', f a (t / 4, t % 4) = .ok a' ∧ P (t + 1) a') {a : α} (h : P 0 a) :
    ∀ t, t ≤ n → ∃ a', ((List.range t).map fun k => (k / 4, k % 4)).foldlM f a = .ok a' ∧ P t a'
  | 0, _ => ⟨a, rfl, h⟩
  | t + 1, ht => by
    obtain ⟨a1, e1, p1⟩ := foldl_range step h t (by omega)
    obtain ⟨a2, e2, p2⟩ := step t (by omega) a1 p1
    refine ⟨a2, ?_, p2⟩
    rw [List.range_succ, List.map_append, List.foldlM_append, e1]
    simp only [ok_bind, List.map_cons, List.map_nil, List.foldlM_cons, e2]
    rfl

/-- The message holds the difference of every choice, four to the byte. -/
theorem diffOf_ok {A : List Block} {c : List (BitVec 8)} {n : Nat} (hA : n ≤ A.length) (hc : n ≤ c.length) (h4 : ∀ x ∈ c, x.toNat < 4) :
    ∃ d, diffOf A c n = .ok d ∧ d.length = divCeil n 4 ∧
      ∀ k, k < n → field (d.getD (k / 4) 0) (k % 4) = ((A.getD k 0).setWidth 8 ^^^ c.getD k 0) &&& 3 := by
  have st := foldl_range (f := diffStep A c) (n := n) (P := fun t st => st.2 = t ∧ st.1.length = divCeil n 4 ∧
      ∀ k, k / 4 < divCeil n 4 → field (st.1.getD (k / 4) 0) (k % 4) = if k < t then ((A.getD k 0).setWidth 8 ^^^ c.getD k 0) &&& 3 else 0)
    (a := (List.replicate (divCeil n 4) 0, 0)) ?_ ?_ n (Nat.le_refl n)
  · obtain ⟨a, e, -, l, hv⟩ := st
    refine ⟨a.1, by simp only [diffOf, slots_eq, e, ok_bind], l, fun k hk => ?_⟩
    rw [hv k (by unfold divCeil; omega), if_pos hk]
  · rintro t ht ⟨d, ii⟩ ⟨h1, h2, h3⟩
    simp only at h1 h2 h3
    subst h1
    have q1 : ii < A.length := by omega
    have q2 : ii < c.length := by omega
    have q3 : ii / 4 < d.length := by rw [h2]; unfold divCeil; omega
    have q4 : ¬ 4 ≤ (c[ii]).toNat := by have := h4 _ (List.getElem_mem q2); omega
    refine ⟨(d.set (ii / 4) (d[ii / 4] ||| (((A[ii].setWidth 8 ^^^ c[ii]) &&& 3) <<< (ii % 4 * 2))), ii + 1), ?_, rfl, by simpa using h2, ?_⟩
    · simp only [diffStep, rd_ok q1, rd_ok q2, rd_ok q3, ok_bind, q4, if_false, wr_ok q3]
    · intro k hk
      have hd := F4.scalar_cases (and3_lt (A[ii].setWidth 8 ^^^ c[ii]))
      have fo := field_or ((A[ii].setWidth 8 ^^^ c[ii]) &&& 3) (by simpa using hd) (ii % 4) (by omega) (k % 4) (by omega) d[ii / 4]
      have h3k := h3 k hk
      by_cases hq : k / 4 = ii / 4
      · have e1 : (d.set (ii / 4) (d[ii / 4] ||| (((A[ii].setWidth 8 ^^^ c[ii]) &&& 3) <<< (ii % 4 * 2)))).getD (k / 4) 0 =
            d[ii / 4] ||| (((A[ii].setWidth 8 ^^^ c[ii]) &&& 3) <<< (ii % 4 * 2)) := by
          simp [List.getD_eq_getElem?_getD, hq, q3]
        have e2 : d.getD (k / 4) 0 = d[ii / 4] := by simp [List.getD_eq_getElem?_getD, hq, q3]
        rw [e1, fo]
        rw [e2] at h3k
        by_cases hr : k % 4 = ii % 4
        · have hkk : k = ii := by omega
          subst hkk
          rw [if_neg (by omega)] at h3k
          have ea : A.getD k 0 = A[k] := getD_rd q1
          have ec : c.getD k 0 = c[k] := by simp [List.getD_eq_getElem?_getD, q2]
          rw [if_pos rfl, h3k, if_pos (by omega), ea, ec]
          simp
        · rw [if_neg hr, h3k]
          by_cases hlt : k < ii
          · rw [if_pos hlt, if_pos (by omega)]
          · rw [if_neg hlt, if_neg (by omega)]
      · have e1 : (d.set (ii / 4) (d[ii / 4] ||| (((A[ii].setWidth 8 ^^^ c[ii]) &&& 3) <<< (ii % 4 * 2)))).getD (k / 4) 0 = d.getD (k / 4) 0 := by
          simp [List.getD_eq_getElem?_getD, List.getElem?_set, Ne.symm hq]
        rw [e1, h3k]
        by_cases hlt : k < ii
        · rw [if_pos hlt, if_pos (by omega)]
        · rw [if_neg hlt, if_neg (by omega)]
  · refine ⟨rfl, by simp, fun k hk => ?_⟩
    rw [if_neg (by omega)]
    have : (List.replicate (divCeil n 4) (0 : BitVec 8)).getD (k / 4) 0 = 0 := by
      simp [List.getD_eq_getElem?_getD, hk]
    rw [this]
    have : ∀ j < 4, field 0 j = 0 := by decide
    exact this _ (by omega)

/-- The sender adds `delta` times each difference. -/
theorem fixup_ok (w : Bool) (delta : Block) {b : List Block} {d : List (BitVec 8)} (hd : d.length = divCeil b.length 4) :
    ∃ b', fixup w delta b d = .ok b' ∧ b'.length = b.length ∧
      ∀ k, k < b.length → ∀ i, i < 64 → elem (b'.getD k 0) i = gadd (elem (b.getD k 0) i) (gmul (elem delta i) (selem (field (d.getD (k / 4) 0) (k % 4)))) := by
  have st := foldl_range (f := fixStep w delta d) (n := b.length) (P := fun t st => st.2 = t ∧ st.1.length = b.length ∧
      ∀ k, k < b.length → ∀ i, i < 64 → elem (st.1.getD k 0) i =
        if k < t then gadd (elem (b.getD k 0) i) (gmul (elem delta i) (selem (field (d.getD (k / 4) 0) (k % 4)))) else elem (b.getD k 0) i)
    (a := (b, 0)) ?_ ?_ b.length (Nat.le_refl _)
  · obtain ⟨a, e, -, l, hv⟩ := st
    have c : (d.length != divCeil b.length 4) = false := by simp [hd]
    refine ⟨a.1, by simp only [fixup, c, throwIf_false, slots_eq, e, ok_bind], l, fun k hk i hi => ?_⟩
    rw [hv k hk i hi, if_pos hk]
  · rintro t ht ⟨x, ii⟩ ⟨h1, h2, h3⟩
    simp only at h1 h2 h3
    subst h1
    have q3 : ii / 4 < d.length := by rw [hd]; unfold divCeil; omega
    have q1 : ii < x.length := by omega
    obtain ⟨u, eu, hu⟩ := F4.C46_mul w delta (r := (d[ii / 4] >>> (2 * (ii % 4))) &&& 3) (and3_lt _)
    refine ⟨(x.set ii (x[ii] ^^^ u), ii + 1), ?_, rfl, by simpa using h2, ?_⟩
    · simp only [fixStep, rd_ok q3, ok_bind, eu, rd_ok q1, wr_ok q1]
    · intro k hk i hi
      show elem ((x.set ii (x[ii] ^^^ u)).getD k 0) i = _
      have h3k := h3 k hk i hi
      rw [getD_set q1]
      by_cases hkk : k = ii
      · subst hkk
        rw [if_neg (by omega), getD_rd q1] at h3k
        have ed : d.getD (k / 4) 0 = d[k / 4] := by simp [List.getD_eq_getElem?_getD, q3]
        rw [if_pos rfl, if_pos (by omega), elem_xor, h3k, hu i hi, ed]
        rfl
      · rw [if_neg hkk, h3k]
        by_cases hlt : k < ii
        · rw [if_pos hlt, if_pos (by omega)]
        · rw [if_neg hlt, if_neg (by omega)]
  · exact ⟨rfl, rfl, fun k _ i _ => by rw [if_neg (by omega)]⟩

/-- **C73** (chosen values). The receiver's scalars of choice are those of the correlation, for any number of them. -/
theorem C73_chosen (w : Bool) {delta : Block} {s : Sender} {r : Receiver} (h : Based delta s r) {c : List (BitVec 8)} (hc : ∀ x ∈ c, x.toNat < 4)
    (hn : c.length ≤ r.req) (W : Nat → Block) {temp : Nat} {ops : List EncOp} (hi : ∀ op ∈ ops, op.inside (r.par.noise + temp)) :
    ∃ a b, chosen w s r delta c c.length W temp ops = .ok (a, b) ∧ a.length = c.length ∧ b.length = c.length ∧
      ∀ k, k < c.length → Vole delta (a.getD k 0) (b.getD k 0) (selem (c.getD k 0)) := by
  obtain ⟨A, B, e1, -, lA, hraw, -⟩ := C73_silent w h hn W hi
  have lB : B.length = r.req := by rw [← hraw.1, lA]
  obtain ⟨d, ed, ld, hd⟩ := diffOf_ok (A := A) (c := c) (n := c.length) (by omega) (Nat.le_refl _) hc
  have lt : (B.take c.length).length = c.length := by simp; omega
  obtain ⟨b, eb, lb, hb⟩ := fixup_ok w delta (b := B.take c.length) (d := d) (by rw [lt, ld])
  refine ⟨A.take c.length, b, by simp only [chosen, e1, ok_bind, ed, eb], by simp; omega, by rw [lb, lt], fun k hk i i0 hi64 => ?_⟩
  have ta : ∀ l : List Block, (l.take c.length).getD k 0 = l.getD k 0 := fun l => by
    simp [List.getD_eq_getElem?_getD, List.getElem?_take_of_lt hk]
  have sx : selem ((A.getD k 0).setWidth 8 ^^^ c.getD k 0) = gadd (elem (A.getD k 0) 0) (selem (c.getD k 0)) := by
    simp [selem, elem, gadd]
  rw [ta, hb k (by rw [lt]; exact hk) i hi64, ta, hd k hk, selem_and3, sx, gmul_gadd, hraw.2 k (by omega) i i0 hi64, gadd_assoc, gadd_assoc, gadd_self, gadd_zero]

/-! ### From the start -/

/-- The draws that are used: those whose first element is not zero. -/
def nonZero (draws : List Block) : List Block := draws.filter fun d => decide (elem d 0 ≠ (false, false))

theorem fromBlockG_zero (d : Block) : F4.fromBlockG d = 0 ↔ elem d 0 = (false, false) := by
  have h := (F4.C46_fromBlock d).1
  constructor
  · intro e; rw [← h, e]; rfl
  · intro e
    rw [e] at h
    exact selem_inj (F4.C46_fromBlock d).2.1 (by decide) h

theorem drawNonZero_ok : ∀ {ds : List Block} {d : Block} {t : List Block}, nonZero ds = d :: t →
    ∃ ds', drawNonZero ds = .ok (F4.fromBlockG d, ds') ∧ nonZero ds' = t
  | [], _, _, h => by simp [nonZero] at h
  | x :: ds, d, t, h => by
    by_cases hx : elem x 0 = (false, false)
    · have : nonZero ds = d :: t := by simpa [nonZero, hx] using h
      obtain ⟨ds', e, f⟩ := drawNonZero_ok this
      exact ⟨ds', by rw [drawNonZero, if_pos ((fromBlockG_zero x).2 hx), e], f⟩
    · have : x :: nonZero ds = d :: t := by simpa [nonZero, hx] using h
      cases this
      exact ⟨ds, by rw [drawNonZero, if_neg (fun e => hx ((fromBlockG_zero x).1 e))], rfl⟩

theorem drawMany_ok : ∀ {n : Nat} {ds : List Block}, n ≤ (nonZero ds).length →
    drawMany n ds = .ok (((nonZero ds).take n).map F4.fromBlockG)
  | 0, _, _ => by simp [drawMany]
  | n + 1, ds, h => by
    cases hz : nonZero ds with
    | nil => rw [hz] at h; simp at h
    | cons d t =>
      obtain ⟨ds', e, f⟩ := drawNonZero_ok hz
      rw [hz] at h
      have := drawMany_ok (n := n) (ds := ds') (by rw [f]; simpa using h)
      simp only [drawMany, e, ok_bind, this, f, List.take_succ_cons, List.map_cons]

/-- What the library samples for parameters `q`: as many distinct points as there are partitions, inside the vector. -/
structure GoodPoints (q : Params) (pts : List Nat) : Prop where
  distinct : pts.Nodup
  count : pts.length = q.parts
  inside : ∀ p ∈ pts, p < q.noise

/-- Two objects of the same kind, not for malicious security. -/
structure Alike (s : Sender) (r : Receiver) : Prop where
  mult : s.mult = r.mult
  code : r.mult ≠ .other
  honestS : s.malicious = false
  honestR : r.malicious = false

/-- **C73** (sampling). The scalars of the noise are the non-zero ones among the draws, in order; the objects are set up alike. -/
theorem C73_sample {s : Sender} {r : Receiver} (h : Alike s r) (lpn : Nat → Params) {n : Nat} (hf : n ≤ (lpn n).noise) {pts : List Nat}
    (hp : GoodPoints (lpn n) pts) {draws : List Block} (hd : (lpn n).parts ≤ (nonZero draws).length) :
    ∃ r' c, batchRequest lpn s r n draws pts = .ok (s.configure lpn n, r', c) ∧ Ready (s.configure lpn n) r' ∧ r'.baseC = c ∧ r'.points = pts ∧
      r'.req = n ∧ r'.par = lpn n ∧ c.map selem = ((nonZero draws).take (lpn n).parts).map (fun d => elem d 0) ∧ ∀ x ∈ c, x ≠ 0 := by
  refine ⟨⟨true, n, lpn n, r.malicious, false, r.baseA, ((nonZero draws).take (lpn n).parts).map F4.fromBlockG, pts, r.mult⟩, ((nonZero draws).take (lpn n).parts).map F4.fromBlockG, ?_, ?_, rfl, rfl, rfl, rfl, ?_, ?_⟩
  · simp only [batchRequest, Receiver.sampleVals, Receiver.configure, Bool.not_true, throwIf_false, ok_bind, drawMany_ok hd, h.honestR]
  · exact {
      confS := rfl, confR := rfl, par := rfl, req := rfl, mult := h.mult, code := h.code, honestS := h.honestS, honestR := h.honestR
      distinct := hp.distinct, points := hp.count, inside := hp.inside
      vals := by simp; exact hd
      scalars := fun c hc => by
        obtain ⟨d, -, rfl⟩ := List.mem_map.1 hc
        exact (F4.C46_fromBlock d).2.1
      fits := hf }
  · rw [List.map_map]
    apply List.map_congr_left
    intro d _
    exact (F4.C46_fromBlock d).1
  · intro x hx
    obtain ⟨d, hd, rfl⟩ := List.mem_map.1 hx
    have := (List.mem_filter.1 (List.mem_of_mem_take hd)).2
    intro e
    rw [decide_eq_true_eq] at this
    exact this ((fromBlockG_zero d).1 e)

theorem noisyVole_ok (w : Bool) (delta : Block) {c : List (BitVec 8)} (hc : ∀ x ∈ c, x.toNat < 4) (b : List Block) (hl : b.length = c.length) :
    ∃ a, noisyVole w delta c b = .ok a ∧ a.length = c.length ∧ ∀ i, i < c.length → Vole delta (a.getD i 0) (b.getD i 0) (selem (c.getD i 0)) := by
  induction c generalizing b with
  | nil => exact ⟨[], by simp [noisyVole, mapRes], rfl, by simp⟩
  | cons x t ih =>
    cases b with
    | nil => simp at hl
    | cons y b =>
      obtain ⟨u, eu, hu⟩ := F4.C46_mul w delta (hc x (by simp))
      obtain ⟨a, ea, la, ha⟩ := ih (fun z hz => hc z (by simp [hz])) b (by simpa using hl)
      refine ⟨(y ^^^ u) :: a, ?_, by simp [la], ?_⟩
      · simp only [noisyVole] at ea
        simp only [noisyVole, List.zip_cons_cons, mapRes, eu, ok_bind, ea]
      · intro i hi
        cases i with
        | zero =>
          intro k _ hk
          show elem (y ^^^ u) k = _
          rw [elem_xor, hu k hk]; rfl
        | succ i => exact ha i (by simpa using hi)

/-- **C73** (fresh objects). Objects never used before configure themselves and make their own base correlations. -/
theorem C73_prepare (w : Bool) {s : Sender} {r : Receiver} (h : Alike s r) (fs : s.configured = false) (fr : r.configured = false)
    (lpn : Nat → Params) (delta : Block) {n : Nat} (hf : n ≤ (lpn n).noise) {pts : List Nat} (hp : GoodPoints (lpn n) pts) {draws : List Block}
    (hd : (lpn n).parts ≤ (nonZero draws).length) (b : Nat → Block) :
    ∃ s' r', prepare w lpn s r delta n draws pts b = .ok (s', r') ∧ Based delta s' r' ∧ r'.req = n ∧ r'.par = lpn n ∧ r'.points = pts := by
  obtain ⟨r1, c, e1, hr, e2, e3, e4, e5, -, -⟩ := C73_sample h lpn hf hp hd
  have es : (r.configure lpn n).sampleVals draws pts = .ok (r1, c) := by
    simp only [batchRequest] at e1
    cases hq : (r.configure lpn n).sampleVals draws pts with
    | error e => rw [hq] at e1; cases e1
    | ok v => rw [hq] at e1; cases e1; rfl
  have lb : ((List.range (s.configure lpn n).baseVoleCount).map b).length = c.length := by
    rw [← e2, hr.vals]
    simp [Sender.baseVoleCount, hr.honestS, hr.par]
  obtain ⟨a, ea, la, ha⟩ := noisyVole_ok w delta (c := c) (fun x hx => hr.scalars x (by rw [e2]; exact hx)) _ lb
  have hc : c.length = r1.par.parts := by rw [← e2]; exact hr.vals
  obtain ⟨s2, r2, f1, f2, hB, g1, g2, -, g4⟩ := C73_base (delta := delta) hr (a := a) (b := (List.range (s.configure lpn n).baseVoleCount).map b)
    (by rw [la, hc]) (by rw [lb, hc]) (fun i hi => by rw [e2]; exact ha i (by rw [hc]; exact hi))
  refine ⟨s2, r2, ?_, hB, by rw [g1, e4], by rw [g2, e5], by rw [g4, e3]⟩
  have q1 : (decide ((s.configure lpn n).req < n) || decide ((r.configure lpn n).req < n)) = false := by simp [Sender.configure, Receiver.configure]
  have q2 : ((s.configure lpn n).hasBase && (r.configure lpn n).hasBase) = false := rfl
  have q3 : (!(s.configure lpn n).configured || !(r.configure lpn n).configured) = false := rfl
  simp only [prepare, fs, fr, Bool.false_eq_true, if_false, q1, throwIf_false, ok_bind, q2, genBase, q3, es, ea]
  rw [hr.par, f1, ok_bind, f2, ok_bind]

/-- **C73** (the chain behind F4-bit OT). Fresh base objects make one chosen VOLE for the scalars of all batches; a batch takes the slice
at its offset, expands it and compresses it. Both parties succeed and the receiver holds, at each of the positions of the batch, the bit that its
choice selects among the sender's four. No relation between the two parties is assumed. -/
theorem C73_batch (w : Bool) (H : Block → Block) (lpn : Nat → Params) (delta : Block)
    {s0 : Sender} {r0 : Receiver} (h0 : Alike s0 r0) (fs : s0.configured = false) (fr : r0.configured = false)
    {cs : List (BitVec 8)} (hcs : ∀ x ∈ cs, x.toNat < 4) (hf0 : cs.length ≤ (lpn cs.length).noise) {pts0 : List Nat}
    (hp0 : GoodPoints (lpn cs.length) pts0) {draws0 : List Block} (hd0 : (lpn cs.length).parts ≤ (nonZero draws0).length) (b0 W0 : Nat → Block)
    {temp0 : Nat} {ops0 : List EncOp} (hi0 : ∀ op ∈ ops0, op.inside ((lpn cs.length).noise + temp0))
    {s : Sender} {r : Receiver} (h : Alike s r) {n : Nat} (hn : 0 < n) (hf : 128 * n ≤ (lpn (128 * n)).noise) {pts : List Nat}
    (hp : GoodPoints (lpn (128 * n)) pts) {draws : List Block} (hd : (lpn (128 * n)).parts ≤ (nonZero draws).length) (W : Nat → Block)
    {temp : Nat} {ops : List EncOp} (hi : ∀ op ∈ ops, op.inside ((lpn (128 * n)).noise + temp))
    {off : Nat} (hoff : off + (lpn (128 * n)).parts ≤ cs.length)
    (hsl : ∀ s' r' c, batchRequest lpn s r (128 * n) draws pts = .ok (s', r', c) → (cs.drop off).take (lpn (128 * n)).parts = c) :
    ∃ s0' r0' a b s' r' c ots m lo hi, prepare w lpn s0 r0 delta cs.length draws0 pts0 b0 = .ok (s0', r0') ∧
      chosen w s0' r0' delta cs cs.length W0 temp0 ops0 = .ok (a, b) ∧
      batchRequest lpn s r (128 * n) draws pts = .ok (s', r', c) ∧
      batchTask w H s' r' delta ((a.drop off).take (lpn (128 * n)).parts) ((b.drop off).take (lpn (128 * n)).parts) W temp ops =
        .ok (ots, m, lo, hi) ∧ ots.length = 4 ∧ (∀ o ∈ ots, o.length = n) ∧ m.length = n ∧ lo.length = n ∧ hi.length = n ∧
      ∀ p, p < 128 * n → bitAt m p = bitAt (ots.getD (choiceNum (bitAt lo p) (bitAt hi p)) []) p := by
  obtain ⟨s0', r0', e1, hB0, e2, e3, -⟩ := C73_prepare w h0 fs fr lpn delta hf0 hp0 hd0 b0
  obtain ⟨a, b, e4, la, lb, hv⟩ := C73_chosen w hB0 hcs (by rw [e2]) W0 (temp := temp0) (ops := ops0) (by rw [e3]; exact hi0)
  obtain ⟨r', c, e5, hr, q1, q2, q3, q4, -, -⟩ := C73_sample h lpn hf hp hd
  have hc := hsl _ _ _ e5
  have sl : ∀ {α : Type} (l : List α) (d : α) (i k : Nat), i < k → ((l.drop off).take k).getD i d = l.getD (off + i) d := by
    intro α l d i k hik
    simp only [List.getD_eq_getElem?_getD]
    rw [List.getElem?_take_of_lt hik, List.getElem?_drop]
  obtain ⟨s2, r2, f1, f2, hB, g1, g2, g3, g4⟩ := C73_base (delta := delta) hr (a := (a.drop off).take (lpn (128 * n)).parts)
    (b := (b.drop off).take (lpn (128 * n)).parts) (by rw [q4]; simp; omega) (by rw [q4]; simp; omega) (fun i hi => by
      rw [q4] at hi
      rw [sl _ _ _ _ hi, sl _ _ _ _ hi, q1, ← hc, sl _ _ _ _ hi]
      exact hv (off + i) (by omega))
  have hB' : Based delta { s2 with mult := .tungsten } { r2 with mult := .tungsten } := {
    confS := hB.confS, confR := hB.confR, par := hB.par, req := hB.req, mult := rfl, code := (fun e => by cases e), honestS := hB.honestS, honestR := hB.honestR
    distinct := hB.distinct, points := hB.points, inside := hB.inside, vals := hB.vals, scalars := hB.scalars, fits := hB.fits
    hasS := hB.hasS, hasR := hB.hasR, lenA := hB.lenA, lenB := hB.lenB, lowA := hB.lowA, lowB := hB.lowB, vole := hB.vole }
  obtain ⟨A, B, e6, -, lA, hraw, -⟩ := C73_silent w hB' (n := r2.req) (Nat.le_refl _) W (temp := temp) (ops := ops)
    (by show ∀ op ∈ ops, op.inside (r2.par.noise + temp); rw [g2, q4]; exact hi)
  have lA' : A.length = 128 * n := by rw [lA]; show r2.req = _; rw [g1, q3]
  obtain ⟨ots, m, lo, hi', k1, k2, k3, k4, k5, k6, k7, k8⟩ := Cor.C45_f4 w H delta hn lA' hraw
  refine ⟨s0', r0', a, b, _, r', c, ots, m, lo, hi', e1, e4, e5, ?_, k3, k4, k5, k6, k7, fun p hp => (k8 p hp).2.1⟩
  simp only [batchTask]
  rw [show (s.configure lpn (128 * n)).par.baseOts = r'.par.baseOts by rw [hr.par], f1, ok_bind, f2, ok_bind, e6, ok_bind]
  simp only [k1, k2, ok_bind]

namespace Ex

/-- Two partitions, a vector of twice the length. -/
def lpn (n : Nat) : Params := ⟨2, 2 * n, 7⟩
def s : Sender := ⟨false, 0, ⟨0, 0, 0⟩, false, false, [], .exConv⟩
def r : Receiver := ⟨false, 0, ⟨0, 0, 0⟩, false, false, [], [], [], .exConv⟩
/-- Fold the two halves, then accumulate. -/
def ops (n : Nat) : List EncOp := ((List.range n).map fun i => .plus i i (n + i)) ++ (List.range n).flatMap fun i => [.mulConst (2 * n) i, .plus i i (2 * n)]
def draws : List Block := [4, 1, 8, 7]

theorem alike : Alike s r := ⟨rfl, by decide, rfl, rfl⟩

theorem inside (n : Nat) : ∀ op ∈ ops n, op.inside ((lpn n).noise + 1) := by
  intro op h
  simp only [ops, List.mem_append, List.mem_map, List.mem_flatMap, List.mem_range, List.mem_cons, List.not_mem_nil, or_false] at h
  rcases h with ⟨i, hi, rfl⟩ | ⟨i, hi, rfl | rfl⟩ <;> simp only [EncOp.inside, lpn] <;> omega

/-- Every step of the chain ends and the OTs are valid, for these parameters, any `delta`, any hash and any leaves. -/
example (w : Bool) (H : Block → Block) (delta : Block) (b0 W0 W : Nat → Block) :
    ∃ s0 r0 a b s' r' c ots m lo hi, prepare w lpn s r delta 2 draws [3, 1] b0 = .ok (s0, r0) ∧
      chosen w s0 r0 delta [1, 3] 2 W0 1 (ops 2) = .ok (a, b) ∧ batchRequest lpn s r 128 draws [5, 200] = .ok (s', r', c) ∧
      batchTask w H s' r' delta ((a.drop 0).take 2) ((b.drop 0).take 2) W 1 (ops 128) = .ok (ots, m, lo, hi) ∧
      bitAt m 5 = bitAt (ots.getD (choiceNum (bitAt lo 5) (bitAt hi 5)) []) 5 := by
  have hq : batchRequest lpn s r 128 draws [5, 200] = .ok (s.configure lpn 128, ⟨true, 128, lpn 128, false, false, [], [1, 3], [5, 200], .exConv⟩, [1, 3]) := by
    decide
  obtain ⟨s0, r0, a, b, s', r', c, ots, m, lo, hi, e1, e2, e3, e4, -, -, -, -, -, hv⟩ :=
    C73_batch w H lpn delta alike rfl rfl (cs := [1, 3]) (by decide) (by decide) (pts0 := [3, 1]) ⟨by decide, by decide, by decide⟩ (draws0 := draws) (by decide)
      b0 W0 (inside 2) alike (n := 1) (by omega) (by decide) (pts := [5, 200]) ⟨by decide, by decide, by decide⟩ (draws := draws) (by decide) W
      (inside 128) (off := 0) (by decide) (by intro s' r' c e; rw [hq] at e; cases e; rfl)
  exact ⟨s0, r0, a, b, s', r', c, ots, m, lo, hi, e1, e2, e3, e4, hv 5 (by omega)⟩

/-- A noise vector as in `C73_silent`, that is not zero. -/
example : IsNoise ⟨true, 2, lpn 2, false, false, [], [1, 3], [3, 1], .exConv⟩ [0, 3, 0, 1] := by
  refine ⟨rfl, ?_, ?_⟩
  · decide
  · intro p hp
    rcases p with _ | _ | _ | _ | p
    · decide
    · simp at hp
    · decide
    · simp at hp
    · simp [List.getD_eq_getElem?_getD, elem]

end Ex

/-! ### Refusals -/

/-- **C73** (refusals). Malicious security, a request above the configured one and base correlations of the wrong number are refused. -/
theorem C73_refused_partial (w : Bool) {s : Sender} {r : Receiver} :
    (∀ draws pts, r.configured = true → r.malicious = true → r.par.parts ≤ (nonZero draws).length → r.sampleVals draws pts = .error .throw) ∧
    (∀ n W temp ops, s.configured = true → r.configured = true → (s.req < n ∨ r.req < n) → silentInplace w s r n W temp ops = .error .throw) ∧
    (∀ k b, k ≠ s.par.baseOts ∨ b.length ≠ s.baseVoleCount ∨ s.configured = false → s.setBase k b = .error .throw) ∧
    (∀ k a, k ≠ r.par.baseOts ∨ r.configured = false → r.setBase k a = .error .throw) ∧
    (∀ temp ops req v, encode w .other temp ops req v = .error .throw) := by
  refine ⟨?_, ?_, ?_, ?_, ?_⟩
  · intro draws pts h1 h2 h3
    simp [Receiver.sampleVals, h1, h2, drawMany_ok h3]
  · intro n W temp ops h1 h2 h3
    have : (decide (s.req < n) || decide (r.req < n)) = true := by simpa using h3
    simp [silentInplace, h1, h2, this]
  · intro k b h
    cases hc : s.configured with
    | false => simp [Sender.setBase, hc]
    | true =>
      by_cases h1 : k = s.par.baseOts
      · have h2 : b.length ≠ s.baseVoleCount := by
          rcases h with h | h | h
          · exact absurd h1 h
          · exact h
          · rw [hc] at h; cases h
        simp only [Sender.setBase, hc, h1, Bool.not_true, throwIf_false, ok_bind, bne_self_eq_false, throwIf_ne h2, err_bind]
      · simp only [Sender.setBase, hc, Bool.not_true, throwIf_false, ok_bind, throwIf_ne h1, err_bind]
  · intro k a h
    cases hc : r.configured with
    | false => simp [Receiver.setBase, hc]
    | true =>
      have h1 : k ≠ r.par.baseOts := by
        rcases h with h | h
        · exact h
        · rw [hc] at h; cases h
      simp only [Receiver.setBase, hc, Bool.not_true, throwIf_false, ok_bind, throwIf_ne h1, err_bind]
  · intros; rfl

/-- The remaining case of **C73** is false: the receiver accepts too few base correlations, and then reads past them. -/
theorem C73_false : ∃ (s s' : Sender) (r r' : Receiver) (a b : List Block), Ready s r ∧ a.length < r.baseVoleCount ∧
    s.setBase r.par.baseOts b = .ok s' ∧ r.setBase r.par.baseOts a = .ok r' ∧
    ∀ w W temp ops, silentInplace w s' r' 1 W temp ops = .error .ub := by
  refine ⟨⟨true, 1, ⟨1, 2, 0⟩, false, false, [], .tungsten⟩, ⟨true, 1, ⟨1, 2, 0⟩, false, true, [0], .tungsten⟩,
    ⟨true, 1, ⟨1, 2, 0⟩, false, false, [], [1], [0], .tungsten⟩, ⟨true, 1, ⟨1, 2, 0⟩, false, true, [], [1], [0], .tungsten⟩, [], [0], ?_, by decide, by decide, by decide, ?_⟩
  · constructor <;> decide
  · intro w W temp ops
    rfl

end F4Vole
end SecJoin
