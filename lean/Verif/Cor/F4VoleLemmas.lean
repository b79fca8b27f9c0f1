import Verif.Cor.F4Vole
import Verif.Cor.OtProps
/-!
# The silent VOLE over the field of four elements: lemmas
-/
namespace SecJoin
namespace F4Vole

open F4 (Block elem selem gadd gmul GF4 block_ext)
open Cor (maskTwo maskTwo_elem)

/-! ## Elements -/

theorem elem_xor (x y : Block) (i : Nat) : elem (x ^^^ y) i = gadd (elem x i) (elem y i) := by simp [elem, gadd]

theorem elem_zero (i : Nat) : elem 0 i = (false, false) := by simp [elem]

theorem gadd_zero (a : GF4) : gadd a (false, false) = a := by simp [gadd]

theorem gadd_self (a : GF4) : gadd a a = (false, false) := by simp [gadd]

theorem gadd_comm (a b : GF4) : gadd a b = gadd b a := by simp [gadd, Bool.xor_comm]

theorem gadd_assoc (a b c : GF4) : gadd (gadd a b) c = gadd a (gadd b c) := by simp [gadd]

theorem gmul_zero (a : GF4) : gmul a (false, false) = (false, false) := by simp [gmul]

theorem gmul_gadd (a b c : GF4) : gmul a (gadd b c) = gadd (gmul a b) (gmul a c) := F4.gf4_field.2.2.1 a b c

theorem gmul_comm (a b : GF4) : gmul a b = gmul b a := F4.gf4_field.2.1 a b

theorem gmul_assoc (a b c : GF4) : gmul (gmul a b) c = gmul a (gmul b c) := F4.gf4_field.1 a b c

theorem fromBlockF_eq (x : Block) : F4.fromBlockF x = x &&& maskTwo := rfl

theorem maskTwo_low {i : Nat} (h : i < 2) : maskTwo.getLsbD i = false := by
  have : ∀ i < 2, maskTwo.getLsbD i = false := by decide
  exact this i h

/-- The two low bits as the code reads them. -/
theorem low_fromBlock (x : Block) : x.setWidth 8 &&& 3 = F4.fromBlockG x := rfl

theorem selem_low (x : Block) : selem (x.setWidth 8 &&& 3) = elem x 0 := (F4.C46_fromBlock x).1

theorem low_lt (x : Block) : (x.setWidth 8 &&& 3).toNat < 4 := (F4.C46_fromBlock x).2.1

theorem and3_lt (x : BitVec 8) : (x &&& 3).toNat < 4 := by
  rw [BitVec.toNat_and]
  exact Nat.lt_of_le_of_lt Nat.and_le_right (by decide)

theorem selem_and3 (x : BitVec 8) : selem (x &&& 3) = selem x := by
  have h0 : (3#8).getLsbD 0 = true := by decide
  have h1 : (3#8).getLsbD 1 = true := by decide
  simp only [selem, BitVec.getLsbD_and]
  simp

theorem selem_inj {a b : BitVec 8} (ha : a.toNat < 4) (hb : b.toNat < 4) (h : selem a = selem b) : a = b := by
  rcases F4.scalar_cases ha with rfl | rfl | rfl | rfl <;> rcases F4.scalar_cases hb with rfl | rfl | rfl | rfl <;> first | rfl | (exfalso; revert h; decide)

/-- The assertion of the code on the low bits. -/
theorem low_zero {x : Block} (h : elem x 0 = (false, false)) : x.setWidth 64 &&& 3 = 0 := by
  apply BitVec.eq_of_getLsbD_eq
  intro i hi
  simp only [elem, Prod.mk.injEq] at h
  have h3 : ∀ i < 64, 2 ≤ i → (3#64).getLsbD i = false := by decide
  rw [BitVec.getLsbD_and, BitVec.getLsbD_setWidth]
  by_cases h2 : 2 ≤ i
  · have := h3 i hi h2
    rw [show (3 : BitVec 64) = 3#64 from rfl, this]; simp
  · rcases (by omega : i = 0 ∨ i = 1) with rfl | rfl
    · have : x.getLsbD 0 = false := h.1
      rw [this]; simp
    · have : x.getLsbD 1 = false := h.2
      rw [this]; simp

/-- Putting a scalar into the free element. -/
theorem elem_or_scalar {x : Block} (hx : elem x 0 = (false, false)) {c : BitVec 8} (hc : c.toNat < 4) {i : Nat} (hi : i < 64) :
    elem (x ||| c.setWidth 128) i = if i = 0 then selem c else elem x i := by
  have hb : ∀ p, 2 ≤ p → (c.setWidth 128).getLsbD p = false := by
    intro p hp
    rw [BitVec.getLsbD_setWidth]
    rcases F4.scalar_cases hc with rfl | rfl | rfl | rfl <;>
    · by_cases h8 : p < 8
      · have : ∀ p < 8, 2 ≤ p → (0#8).getLsbD p = false ∧ (1#8).getLsbD p = false ∧ (2#8).getLsbD p = false ∧ (3#8).getLsbD p = false := by decide
        obtain ⟨a0, a1, a2, a3⟩ := this p h8 hp
        first
        | (rw [show (0 : BitVec 8) = 0#8 from rfl, a0]; simp)
        | (rw [show (1 : BitVec 8) = 1#8 from rfl, a1]; simp)
        | (rw [show (2 : BitVec 8) = 2#8 from rfl, a2]; simp)
        | (rw [show (3 : BitVec 8) = 3#8 from rfl, a3]; simp)
      · rw [BitVec.getLsbD_of_ge _ _ (by omega)]; simp
  by_cases h0 : i = 0
  · subst h0
    simp only [elem, Prod.mk.injEq] at hx
    have q0 : x.getLsbD 0 = false := hx.1
    have q1 : x.getLsbD 1 = false := hx.2
    rw [if_pos rfl]
    simp only [elem, selem, Nat.mul_zero, Nat.zero_add, BitVec.getLsbD_or, q0, q1, Bool.false_or, BitVec.getLsbD_setWidth]
    simp
  · rw [if_neg h0]
    simp only [elem, BitVec.getLsbD_or]
    rw [hb _ (by omega), hb _ (by omega)]
    simp

/-! ## The code -/

/-- The operations stay inside a vector of `size` blocks. -/
def EncOp.inside (size : Nat) : EncOp → Prop
  | .plus ret lhs rhs => ret < size ∧ lhs < size ∧ rhs < size
  | .mulConst ret x => ret < size ∧ x < size
  | .copy ret x => ret < size ∧ x < size
  | .zero ret => ret < size

/-- A relation that the operations of the context keep. -/
structure Kept (w : Bool) (R : Block → Block → Prop) : Prop where
  zero : R 0 0
  plus : ∀ {a b a' b'}, R a b → R a' b' → R (a ^^^ a') (b ^^^ b')
  const : ∀ {a b a' b'}, R a b → F4.mulConst w a = .ok a' → F4.mulConst w b = .ok b' → R a' b'

theorem mulConst_ok (w : Bool) (x : Block) : ∃ y, F4.mulConst w x = .ok y ∧ ∀ i < 64, elem y i = gmul (elem x i) (selem 3) :=
  F4.C46_mul w x (r := 3) (by decide)

theorem op_ok (w : Bool) {m : List Block} {op : EncOp} (h : op.inside m.length) : ∃ m', op.run w m = .ok m' ∧ m'.length = m.length := by
  cases op with
  | plus ret lhs rhs =>
    obtain ⟨h1, h2, h3⟩ := h
    exact ⟨m.set ret (m[lhs] ^^^ m[rhs]), by simp only [EncOp.run, rd_ok h2, rd_ok h3, ok_bind, wr_ok h1], by simp⟩
  | mulConst ret x =>
    obtain ⟨h1, h2⟩ := h
    obtain ⟨y, e, -⟩ := mulConst_ok w m[x]
    exact ⟨m.set ret y, by simp only [EncOp.run, rd_ok h2, e, ok_bind, wr_ok h1], by simp⟩
  | copy ret x =>
    obtain ⟨h1, h2⟩ := h
    exact ⟨m.set ret m[x], by simp only [EncOp.run, rd_ok h2, ok_bind, wr_ok h1], by simp⟩
  | zero ret => exact ⟨_, by simp only [EncOp.run]; exact wr_ok h, by simp⟩

theorem ops_ok (w : Bool) {ops : List EncOp} : ∀ {m : List Block}, (∀ op ∈ ops, op.inside m.length) →
    ∃ m', ops.foldlM (EncOp.run w) m = .ok m' ∧ m'.length = m.length := by
  induction ops with
  | nil => intro m _; exact ⟨m, rfl, rfl⟩
  | cons op t ih =>
    intro m h
    obtain ⟨m1, e1, l1⟩ := op_ok w (h op (by simp))
    obtain ⟨m2, e2, l2⟩ := ih (m := m1) (fun o ho => by rw [l1]; exact h o (by simp [ho]))
    exact ⟨m2, by rw [List.foldlM_cons, e1]; exact e2, by rw [l2, l1]⟩

/-- Pointwise relation of two vectors. -/
def Pts (R : Block → Block → Prop) (a b : List Block) : Prop :=
  a.length = b.length ∧ ∀ p, p < a.length → R (a.getD p 0) (b.getD p 0)

theorem getD_rd {l : List Block} {i : Nat} (h : i < l.length) : l.getD i 0 = l[i] := by
  simp [List.getD_eq_getElem?_getD, h]

theorem getD_set {l : List Block} {i p : Nat} {x : Block} (h : i < l.length) : (l.set i x).getD p 0 = if p = i then x else l.getD p 0 := by
  by_cases hp : p = i
  · subst hp; simp [List.getD_eq_getElem?_getD, h]
  · simp [List.getD_eq_getElem?_getD, List.getElem?_set, hp, Ne.symm hp]

theorem pts_set {R : Block → Block → Prop} {a b : List Block} (h : Pts R a b) {i : Nat} (hi : i < a.length) {x y : Block} (hxy : R x y) :
    Pts R (a.set i x) (b.set i y) := by
  refine ⟨by simp [h.1], fun p hp => ?_⟩
  rw [getD_set hi, getD_set (by rw [← h.1]; exact hi)]
  split
  · exact hxy
  · exact h.2 p (by simpa using hp)

theorem op_kept {w : Bool} {R : Block → Block → Prop} (k : Kept w R) {a b a' b' : List Block} (h : Pts R a b) {op : EncOp}
    (hi : op.inside a.length) (ea : op.run w a = .ok a') (eb : op.run w b = .ok b') : Pts R a' b' := by
  have hl := h.1
  have rel : ∀ {i : Nat} (h1 : i < a.length) (h2 : i < b.length), R a[i] b[i] := by
    intro i h1 h2
    have := h.2 i h1
    rwa [getD_rd h1, getD_rd h2] at this
  cases op with
  | plus ret lhs rhs =>
    obtain ⟨h1, h2, h3⟩ := hi
    simp only [EncOp.run, rd_ok h2, rd_ok h3, ok_bind, wr_ok h1] at ea
    simp only [EncOp.run, rd_ok (l := b) (hl ▸ h2), rd_ok (l := b) (hl ▸ h3), ok_bind, wr_ok (l := b) (hl ▸ h1)] at eb
    cases ea; cases eb
    exact pts_set h h1 (k.plus (rel h2 _) (rel h3 _))
  | mulConst ret x =>
    obtain ⟨h1, h2⟩ := hi
    obtain ⟨y, e, -⟩ := mulConst_ok w a[x]
    obtain ⟨z, f, -⟩ := mulConst_ok w (b[x]'(hl ▸ h2))
    simp only [EncOp.run, rd_ok h2, e, ok_bind, wr_ok h1] at ea
    simp only [EncOp.run, rd_ok (l := b) (hl ▸ h2), f, ok_bind, wr_ok (l := b) (hl ▸ h1)] at eb
    cases ea; cases eb
    exact pts_set h h1 (k.const (rel h2 _) e f)
  | copy ret x =>
    obtain ⟨h1, h2⟩ := hi
    simp only [EncOp.run, rd_ok h2, ok_bind, wr_ok h1] at ea
    simp only [EncOp.run, rd_ok (l := b) (hl ▸ h2), ok_bind, wr_ok (l := b) (hl ▸ h1)] at eb
    cases ea; cases eb
    exact pts_set h h1 (rel h2 _)
  | zero ret =>
    simp only [EncOp.run] at ea eb
    rw [wr_ok hi] at ea
    rw [wr_ok (by rw [← hl]; exact hi)] at eb
    cases ea; cases eb
    exact pts_set h hi k.zero

theorem ops_kept {w : Bool} {R : Block → Block → Prop} (k : Kept w R) {ops : List EncOp} : ∀ {a b a' b' : List Block}, Pts R a b →
    (∀ op ∈ ops, op.inside a.length) → ops.foldlM (EncOp.run w) a = .ok a' → ops.foldlM (EncOp.run w) b = .ok b' → Pts R a' b' := by
  induction ops with
  | nil => intro a b a' b' h _ ea eb; cases ea; cases eb; exact h
  | cons op t ih =>
    intro a b a' b' h hi ea eb
    obtain ⟨a1, e1, l1⟩ := op_ok w (hi op (by simp))
    obtain ⟨b1, f1, -⟩ := op_ok w (m := b) (h.1 ▸ hi op (by simp))
    rw [List.foldlM_cons, e1] at ea
    rw [List.foldlM_cons, f1] at eb
    exact ih (op_kept k h (hi op (by simp)) e1 f1) (fun o ho => by rw [l1]; exact hi o (by simp [ho])) ea eb

/-- The encoder ends, and keeps every such relation. -/
theorem encode_ok (w : Bool) {mult : Mult} (hm : mult ≠ .other) {temp req : Nat} {ops : List EncOp} {a : List Block} (hr : req ≤ a.length)
    (hi : ∀ op ∈ ops, op.inside (a.length + temp)) : ∃ a', encode w mult temp ops req a = .ok a' ∧ a'.length = req := by
  obtain ⟨m, e, l⟩ := ops_ok w (m := a ++ List.replicate temp 0) (ops := ops) (by simpa using hi)
  refine ⟨m.take req, ?_, by simp [l]; omega⟩
  have : (mult == Mult.other) = false := by simpa using hm
  simp only [encode, this, throwIf_false, ok_bind, e]
  rw [if_neg (by omega)]

theorem encode_kept {w : Bool} {R : Block → Block → Prop} (k : Kept w R) {mult : Mult} {temp req : Nat} {ops : List EncOp}
    {a b a' b' : List Block} (h : Pts R a b) (hi : ∀ op ∈ ops, op.inside (a.length + temp))
    (ea : encode w mult temp ops req a = .ok a') (eb : encode w mult temp ops req b = .ok b') : Pts R a' b' := by
  have h0 : Pts R (a ++ List.replicate temp 0) (b ++ List.replicate temp 0) := by
    refine ⟨by simp [h.1], fun p hp => ?_⟩
    simp only [List.getD_eq_getElem?_getD, List.getElem?_append, ← h.1]
    split
    · have := h.2 p (by assumption)
      simpa only [List.getD_eq_getElem?_getD] using this
    · have : (List.replicate temp (0 : Block))[p - a.length]?.getD 0 = 0 := by
        rw [List.getElem?_replicate]; split <;> rfl
      rw [this]
      exact k.zero
  obtain ⟨m, e, l⟩ := ops_ok w (m := a ++ List.replicate temp 0) (ops := ops) (by simpa using hi)
  obtain ⟨m', e', l'⟩ := ops_ok w (m := b ++ List.replicate temp 0) (ops := ops) (by simpa [← h.1] using hi)
  have hk := ops_kept k h0 (by simpa using hi) e e'
  by_cases hm : (mult == Mult.other) = true
  · simp [encode, hm] at ea
  · rw [Bool.not_eq_true] at hm
    simp only [encode, hm, throwIf_false, ok_bind, e] at ea
    simp only [encode, hm, throwIf_false, ok_bind, e'] at eb
    by_cases hr : a.length < req
    · rw [if_pos hr] at ea; cases ea
    · rw [if_neg hr] at ea
      rw [if_neg (by rw [← h.1]; exact hr)] at eb
      cases ea; cases eb
      refine ⟨by simp [hk.1], fun p hp => ?_⟩
      have hp' : p < req ∧ p < m.length := by simpa using hp
      have := hk.2 p hp'.2
      simpa only [List.getD_eq_getElem?_getD, List.getElem?_take_of_lt hp'.1] using this

/-! ## Sparse vectors -/

theorem addAt_ok : ∀ {l : List (Nat × Block)} {m : List Block}, (l.map Prod.fst).Nodup → (∀ q ∈ l, q.1 < m.length) →
    ∃ m', addAt m l = .ok m' ∧ m'.length = m.length ∧ (∀ q ∈ l, m'.getD q.1 0 = m.getD q.1 0 ^^^ q.2) ∧
      ∀ p, p ∉ l.map Prod.fst → m'.getD p 0 = m.getD p 0
  | [], m, _, _ => ⟨m, rfl, rfl, by simp, by simp⟩
  | (p, v) :: t, m, hn, hl => by
    have hp : p < m.length := hl (p, v) (by simp)
    rw [List.map_cons, List.nodup_cons] at hn
    obtain ⟨m', e, l', h1, h2⟩ := addAt_ok (l := t) (m := m.set p (m[p] ^^^ v)) hn.2 (fun q hq => by simpa using hl q (by simp [hq]))
    refine ⟨m', by simp only [addAt, rd_ok hp, wr_ok hp, ok_bind, e], by simp [l'], ?_, ?_⟩
    · intro q hq
      rcases List.mem_cons.1 hq with rfl | hq
      · rw [h2 p hn.1, getD_set hp, if_pos rfl, getD_rd hp]
      · have : q.1 ≠ p := fun e => hn.1 (List.mem_map.2 ⟨q, hq, e⟩)
        rw [h1 q hq, getD_set hp, if_neg this]
    · intro x hx
      simp only [List.map_cons, List.mem_cons, not_or] at hx
      rw [h2 x hx.2, getD_set hp, if_neg hx.1]

theorem orAt_ok : ∀ {l : List (Nat × BitVec 8)} {m : List Block}, (l.map Prod.fst).Nodup → (∀ q ∈ l, q.1 < m.length) →
    ∃ m', orAt m l = .ok m' ∧ m'.length = m.length ∧ (∀ q ∈ l, m'.getD q.1 0 = m.getD q.1 0 ||| q.2.setWidth 128) ∧
      ∀ p, p ∉ l.map Prod.fst → m'.getD p 0 = m.getD p 0
  | [], m, _, _ => ⟨m, rfl, rfl, by simp, by simp⟩
  | (p, v) :: t, m, hn, hl => by
    have hp : p < m.length := hl (p, v) (by simp)
    rw [List.map_cons, List.nodup_cons] at hn
    obtain ⟨m', e, l', h1, h2⟩ := orAt_ok (l := t) (m := m.set p (m[p] ||| v.setWidth 128)) hn.2 (fun q hq => by simpa using hl q (by simp [hq]))
    refine ⟨m', by simp only [orAt, rd_ok hp, wr_ok hp, ok_bind, e], by simp [l'], ?_, ?_⟩
    · intro q hq
      rcases List.mem_cons.1 hq with rfl | hq
      · rw [h2 p hn.1, getD_set hp, if_pos rfl, getD_rd hp]
      · have : q.1 ≠ p := fun e => hn.1 (List.mem_map.2 ⟨q, hq, e⟩)
        rw [h1 q hq, getD_set hp, if_neg this]
    · intro x hx
      simp only [List.map_cons, List.mem_cons, not_or] at hx
      rw [h2 x hx.2, getD_set hp, if_neg hx.1]

theorem zip_mem {α β : Type} {a : List α} {b : List β} {i : Nat} (h1 : i < a.length) (h2 : i < b.length) : (a[i], b[i]) ∈ a.zip b := by
  have : i < (a.zip b).length := by simp; omega
  have h := List.getElem_mem this
  simpa using h

theorem zip_fst {α β : Type} {a : List α} {b : List β} (h : a.length = b.length) : (a.zip b).map Prod.fst = a :=
  List.map_fst_zip (by omega)

/-! ## Positions of the chosen values -/

theorem slots_aux (n : Nat) : ∀ nb, (List.range nb).flatMap (fun i => (List.range (min (n - i * 4) 4)).map fun j => (i, j)) =
    (List.range (min n (4 * nb))).map fun k => (k / 4, k % 4)
  | 0 => by simp
  | nb + 1 => by
    rw [List.range_succ, List.flatMap_append, slots_aux n nb, show min n (4 * (nb + 1)) = min n (4 * nb) + min (n - nb * 4) 4 by omega,
      List.range_add, List.map_append]
    congr 1
    rw [List.flatMap_singleton, List.map_map]
    apply List.map_congr_left
    intro j hj
    have : j < min (n - nb * 4) 4 := List.mem_range.1 hj
    simp only [Function.comp, Prod.mk.injEq]
    omega

theorem slots_eq (n : Nat) : slots n = (List.range n).map fun k => (k / 4, k % 4) := by
  rw [slots, slots_aux, show min n (4 * divCeil n 4) = n by unfold divCeil; omega]

end F4Vole
end SecJoin
