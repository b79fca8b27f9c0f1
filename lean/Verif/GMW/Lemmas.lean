import Verif.GMW.Spec
/-!
# Lemmas on the GMW protocol
-/
namespace SecJoin
namespace Gmw

theorem cut_ok {n : Nat} {l : List α} (h : n ≤ l.length) : cut n l = .ok (l.take n, l.drop n) := by
  unfold cut; rw [if_pos h]

@[simp] theorem xorW_length (x y : Word) : (xorW x y).length = min x.length y.length := by simp [xorW]
@[simp] theorem andW_length (x y : Word) : (andW x y).length = min x.length y.length := by simp [andW]
@[simp] theorem notW_length (x : Word) : (notW x).length = x.length := by simp [notW]

/-! ## OLEs -/

/-- The entries of both parties are OLEs: `m0 * m1 = a0 + a1`, all of the same number. -/
structure Ole (m0 a0 m1 a1 : List Block) : Prop where
  l1 : a0.length = m0.length
  l2 : m1.length = m0.length
  l3 : a1.length = m0.length
  eq : andW m0 m1 = xorW a0 a1

theorem Ole.take {m0 a0 m1 a1 : List Block} (h : Ole m0 a0 m1 a1) (n : Nat) :
    Ole (m0.take n) (a0.take n) (m1.take n) (a1.take n) := by
  refine ⟨?_, ?_, ?_, ?_⟩
  · simp [h.l1]
  · simp [h.l2]
  · simp [h.l3]
  · have := congrArg (List.take n) h.eq
    unfold andW xorW at this ⊢
    rw [List.take_zipWith, List.take_zipWith] at this
    exact this

theorem Ole.drop {m0 a0 m1 a1 : List Block} (h : Ole m0 a0 m1 a1) (n : Nat) :
    Ole (m0.drop n) (a0.drop n) (m1.drop n) (a1.drop n) := by
  refine ⟨?_, ?_, ?_, ?_⟩
  · simp [h.l1]
  · simp [h.l2]
  · simp [h.l3]
  · have := congrArg (List.drop n) h.eq
    unfold andW xorW at this ⊢
    rw [List.drop_zipWith, List.drop_zipWith] at this
    exact this

theorem Ole.append {m0 a0 m1 a1 n0 b0 n1 b1 : List Block} (h : Ole m0 a0 m1 a1) (g : Ole n0 b0 n1 b1) :
    Ole (m0 ++ n0) (a0 ++ b0) (m1 ++ n1) (a1 ++ b1) := by
  refine ⟨?_, ?_, ?_, ?_⟩
  · simp [h.l1, g.l1]
  · simp [h.l2, g.l2]
  · simp [h.l3, g.l3]
  · have e1 := h.eq
    have e2 := g.eq
    unfold andW xorW at *
    rw [List.zipWith_append h.l2.symm, List.zipWith_append (by rw [h.l1, h.l3]), e1, e2]

theorem Ole.nil : Ole [] [] [] [] := ⟨rfl, rfl, rfl, rfl⟩

/-- The roles of the parties can be exchanged. -/
theorem Ole.symm {m0 a0 m1 a1 : List Block} (h : Ole m0 a0 m1 a1) : Ole m1 a1 m0 a0 := by
  refine ⟨by rw [h.l3, h.l2], h.l2.symm, by rw [h.l1, h.l2], ?_⟩
  have e := h.eq
  unfold andW xorW at *
  rw [List.zipWith_comm_of_comm (fun x y => BitVec.and_comm x y), e,
    List.zipWith_comm_of_comm (fun x y => BitVec.xor_comm x y)]

/-- The segments of both parties match and each has an even number of blocks. -/
def SegsOk : List (List Block × List Block) → List (List Block × List Block) → Prop
  | [], [] => True
  | s :: ss, t :: ts => Ole s.1 s.2 t.1 t.2 ∧ s.1.length % 2 = 0 ∧ SegsOk ss ts
  | _, _ => False

structure PoolOk (p0 p1 : Pool) : Prop where
  ole : Ole p0.mult p0.add p1.mult p1.add
  even : p0.mult.length % 2 = 0
  segs : SegsOk p0.segs p1.segs

/-- The number of blocks that are left. -/
def Pool.total (p : Pool) : Nat := p.add.length + (p.segs.map fun s => s.2.length).sum

theorem SegsOk.length {s t : List (List Block × List Block)} (h : SegsOk s t) : s.length = t.length := by
  induction s generalizing t with
  | nil => cases t <;> simp_all [SegsOk]
  | cons a s ih => cases t with
    | nil => simp [SegsOk] at h
    | cons b t => simp [ih h.2.2]

/-- The triples of both parties for one level. -/
structure TriplesOk (need : Nat) (t0 t1 : Triples) : Prop where
  h01 : Ole t0.a t0.b t1.c t1.d
  h10 : Ole t1.a t1.b t0.c t0.d
  l0 : t0.a.length = need
  l1 : t1.a.length = need

theorem fetch_ok : ∀ (fuel need : Nat) (p0 p1 : Pool), PoolOk p0 p1 → 2 * need ≤ p0.total →
    need + p0.segs.length ≤ fuel →
    ∃ t0 t1 q0 q1, fetch 0 fuel need p0 = .ok (t0, q0) ∧ fetch 1 fuel need p1 = .ok (t1, q1) ∧
      TriplesOk need t0 t1 ∧ PoolOk q0 q1 ∧ q0.total + 2 * need = p0.total := by
  intro fuel
  induction fuel with
  | zero =>
    intro need p0 p1 h ht hf
    have : need = 0 := by omega
    subst this
    exact ⟨_, _, p0, p1, rfl, rfl, ⟨Ole.nil, Ole.nil, rfl, rfl⟩, h, by omega⟩
  | succ fuel ih =>
    intro need p0 p1 h ht hf
    cases need with
    | zero => exact ⟨_, _, p0, p1, by rfl, by rfl, ⟨Ole.nil, Ole.nil, rfl, rfl⟩, h, by omega⟩
    | succ need =>
      -- the pool after `get`
      obtain ⟨r0, r1, g0, g1, hr, htr, hlr⟩ : ∃ r0 r1 : Pool,
          refill p0 = .ok r0 ∧ refill p1 = .ok r1 ∧
          PoolOk r0 r1 ∧ r0.total = p0.total ∧
          (p0.add.length ≠ 0 ∧ r0.segs.length = p0.segs.length ∧ r0.add.length ≠ 0 ∨ r0.segs.length + 1 = p0.segs.length) := by
        unfold refill
        by_cases h0 : p0.add.length = 0
        · have h1 : p1.add.length = 0 := by rw [h.ole.l3, ← h.ole.l1, h0]
          rw [if_pos h0, if_pos h1]
          have hs := h.segs
          unfold Pool.total at ht
          match e0 : p0.segs, e1 : p1.segs with
          | [], _ => rw [e0] at ht; simp at ht; omega
          | s :: ss, [] => rw [e0, e1] at hs; simp [SegsOk] at hs
          | s :: ss, u :: us =>
            rw [e0, e1] at hs
            refine ⟨_, _, rfl, rfl, ⟨hs.1, hs.2.1, hs.2.2⟩, ?_, Or.inr rfl⟩
            unfold Pool.total
            rw [e0, h0]
            simp
        · have h1 : p1.add.length ≠ 0 := by rw [h.ole.l3, ← h.ole.l1]; exact h0
          rw [if_neg h0, if_neg h1]
          exact ⟨p0, p1, rfl, rfl, h, rfl, Or.inl ⟨h0, rfl, h0⟩⟩
      have ho := hr.ole
      have hle : r1.add.length = r0.add.length := by rw [ho.l3, ho.l1]
      have he : r0.add.length % 2 = 0 := by rw [ho.l1]; exact hr.even
      have hmul : ∀ k, Nat.min (need + 1) (r0.add.length / 2) = k → k ≤ need + 1 ∧ 2 * k ≤ r0.add.length ∧
          (k = 0 → r0.add.length = 0) := by
        intro k hk
        subst hk
        have h1 : Nat.min (need + 1) (r0.add.length / 2) ≤ need + 1 := Nat.min_le_left ..
        have h2 : Nat.min (need + 1) (r0.add.length / 2) ≤ r0.add.length / 2 := Nat.min_le_right ..
        refine ⟨h1, by omega, fun h3 => ?_⟩
        rcases Nat.le_total (need + 1) (r0.add.length / 2) with h4 | h4
        · have := Nat.min_eq_left h4
          have : Nat.min (need + 1) (r0.add.length / 2) = need + 1 := this
          omega
        · have : Nat.min (need + 1) (r0.add.length / 2) = r0.add.length / 2 := Nat.min_eq_right h4
          omega
      simp only [fetch]
      rw [g0, g1, ok_bind, ok_bind]
      simp only [hle]
      generalize hmin : Nat.min (need + 1) (r0.add.length / 2) = k
      obtain ⟨k1, k2, k3⟩ := hmul k hmin
      rw [if_neg (by omega), if_neg (by omega)]
      rw [cut_ok (by rw [← ho.l1]; omega), ok_bind, cut_ok (by rw [List.length_drop, ← ho.l1]; omega), ok_bind,
        cut_ok (by omega), ok_bind, cut_ok (by rw [List.length_drop]; omega), ok_bind,
        cut_ok (by rw [ho.l2, ← ho.l1]; omega), ok_bind, cut_ok (by rw [List.length_drop, ho.l2, ← ho.l1]; omega),
        ok_bind, cut_ok (by omega), ok_bind, cut_ok (by rw [List.length_drop]; omega), ok_bind]
      obtain ⟨t0, t1, q0, q1, f0, f1, ft, fp, fq⟩ := ih (need + 1 - k)
        ⟨(r0.mult.drop k).drop k, (r0.add.drop k).drop k, r0.segs⟩ ⟨(r1.mult.drop k).drop k, (r1.add.drop k).drop k, r1.segs⟩
        ⟨(ho.drop k).drop k, by
          simp only [List.length_drop]
          rw [← ho.l1]; omega, hr.segs⟩ (by
          unfold Pool.total at *
          simp only [List.length_drop]
          omega) (by
          simp only
          omega)
      rw [f0, f1, ok_bind, ok_bind]
      simp only
      rw [if_neg (by decide), if_pos (by decide)]
      refine ⟨_, _, q0, q1, rfl, rfl, ?_, fp, ?_⟩
      · have hd := ho.drop k
        refine ⟨(hd.take k).append ft.h01, ((ho.take k).symm).append ft.h10, ?_, ?_⟩
        · simp only [List.length_append, List.length_take, List.length_drop, ft.l0]
          rw [← ho.l1]; omega
        · simp only [List.length_append, List.length_take, ft.l1]
          rw [ho.l2, ← ho.l1]; omega
      · rw [← htr]
        unfold Pool.total at fq ⊢
        simp only [List.length_drop] at fq
        omega

/-! ## One gate -/

/-- Bit `k` of a wire. -/
def wbit (w : Word) (k : Nat) : Bool := (w.getD (k / 128) 0).getLsbD (k % 128)

theorem wbit_xor {x y : Word} {W k : Nat} (hx : x.length = W) (hy : y.length = W) (hk : k < 128 * W) :
    wbit (xorW x y) k = (wbit x k ^^ wbit y k) := by
  unfold wbit xorW
  simp only [List.getD_eq_getElem?_getD, List.getElem?_zipWith]
  rw [List.getElem?_eq_getElem (by omega), List.getElem?_eq_getElem (by omega)]
  simp

theorem wbit_and {x y : Word} {W k : Nat} (hx : x.length = W) (hy : y.length = W) (hk : k < 128 * W) :
    wbit (andW x y) k = (wbit x k && wbit y k) := by
  unfold wbit andW
  simp only [List.getD_eq_getElem?_getD, List.getElem?_zipWith]
  rw [List.getElem?_eq_getElem (by omega), List.getElem?_eq_getElem (by omega)]
  simp

theorem wbit_not {x : Word} {W k : Nat} (hx : x.length = W) (hk : k < 128 * W) :
    wbit (notW x) k = !wbit x k := by
  unfold wbit notW
  simp only [List.getD_eq_getElem?_getD, List.getElem?_map]
  rw [List.getElem?_eq_getElem (by omega)]
  simp only [Option.map_some, Option.getD_some, BitVec.getLsbD_xor, BitVec.getLsbD_allOnes]
  simp [show k % 128 < 128 by omega]

/-- The multiplication of one bit: all gate types, shares and correlations. -/
theorem mult_bit (inA inB inC : Bool) (x0 y0 x1 y1 a0 c0 a1 c1 b0 b1 d0 d1 : Bool)
    (h0 : (a0 && c1) = (b0 ^^ d1)) (h1 : (a1 && c0) = (b1 ^^ d0)) :
    (((((x0 ^^ inA) && (y0 ^^ inB)) ^^ (((x0 ^^ inA) && (c1 ^^ y1)) ^^ b0)) ^^ ((c0 && (a1 ^^ x1)) ^^ d0)) ^^ inC ^^
      (((x1 && (c0 ^^ (y0 ^^ inB))) ^^ b1) ^^ ((c1 && (a0 ^^ (x0 ^^ inA))) ^^ d1) ^^ (x1 && y1))) =
    ((((x0 ^^ x1) ^^ inA) && ((y0 ^^ y1) ^^ inB)) ^^ inC) := by
  have e0 : d1 = (b0 ^^ (a0 && c1)) := by rw [h0]; cases b0 <;> simp
  have e1 : d0 = (b1 ^^ (a1 && c0)) := by rw [h1]; cases b1 <;> simp
  subst e0 e1
  clear h0 h1
  revert inA inB inC x0 y0 x1 y1 a0 c0 a1 c1 b0 b1
  decide +kernel

/-- Both parties' messages and outputs of one multiplication gate. -/
theorem mult_ok {W : Nat} {gt : GateType} (hk : kind gt = .mult) {x0 y0 a0 b0 c0 d0 x1 y1 a1 b1 c1 d1 : Word}
    (hx0 : x0.length = W) (hy0 : y0.length = W) (hx1 : x1.length = W) (hy1 : y1.length = W)
    (ha0 : a0.length = W) (ha1 : a1.length = W)
    (h01 : Ole a0 b0 c1 d1) (h10 : Ole a1 b1 c0 d0) :
    ∃ u0 v0 u1 v1 z0 z1, multSend 0 gt x0 y0 a0 c0 = .ok (u0 ++ v0) ∧ multSend 1 gt x1 y1 a1 c1 = .ok (u1 ++ v1) ∧
      u0.length = W ∧ v0.length = W ∧ u1.length = W ∧ v1.length = W ∧
      multRecv 0 gt x0 y0 b0 c0 d0 u1 v1 = .ok z0 ∧ multRecv 1 gt x1 y1 b1 c1 d1 u0 v0 = .ok z1 ∧
      z0.length = W ∧ z1.length = W ∧
      ∀ k < 128 * W, (wbit z0 k ^^ wbit z1 k) = table gt (wbit x0 k ^^ wbit x1 k) (wbit y0 k ^^ wbit y1 k) := by
  have hb0 : b0.length = W := by rw [h01.l1, ha0]
  have hc1 : c1.length = W := by rw [h01.l2, ha0]
  have hd1 : d1.length = W := by rw [h01.l3, ha0]
  have hb1 : b1.length = W := by rw [h10.l1, ha1]
  have hc0 : c0.length = W := by rw [h10.l2, ha1]
  have hd0 : d0.length = W := by rw [h10.l3, ha1]
  have v0 : ∀ k < 128 * W, (wbit a0 k && wbit c1 k) = (wbit b0 k ^^ wbit d1 k) := by
    intro k hk
    rw [← wbit_and ha0 hc1 hk, ← wbit_xor hb0 hd1 hk, h01.eq]
  have v1 : ∀ k < 128 * W, (wbit a1 k && wbit c0 k) = (wbit b1 k ^^ wbit d0 k) := by
    intro k hk
    rw [← wbit_and ha1 hc0 hk, ← wbit_xor hb1 hd0 hk, h10.eq]
  -- lengths of the intermediate words
  have key : ∀ (iA iB iC : Bool), invertA gt = .ok iA → invertB gt = .ok iB → invertC gt = .ok iC →
      (∀ a b, table gt a b = (((a ^^ iA) && (b ^^ iB)) ^^ iC)) →
      ∃ u0 v0 u1 v1 z0 z1, multSend 0 gt x0 y0 a0 c0 = .ok (u0 ++ v0) ∧ multSend 1 gt x1 y1 a1 c1 = .ok (u1 ++ v1) ∧
      u0.length = W ∧ v0.length = W ∧ u1.length = W ∧ v1.length = W ∧
      multRecv 0 gt x0 y0 b0 c0 d0 u1 v1 = .ok z0 ∧ multRecv 1 gt x1 y1 b1 c1 d1 u0 v0 = .ok z1 ∧
      z0.length = W ∧ z1.length = W ∧
      ∀ k < 128 * W, (wbit z0 k ^^ wbit z1 k) = table gt (wbit x0 k ^^ wbit x1 k) (wbit y0 k ^^ wbit y1 k) := by
    intro iA iB iC eA eB eC ht
    refine ⟨if iA = false then xorW a0 x0 else notW (xorW a0 x0), if iB = false then xorW c0 y0 else xorW c0 (notW y0),
      xorW c1 y1, xorW a1 x1,
      (let z := xorW (xorW (andW (if iA then notW x0 else x0) (if iB then notW y0 else y0))
          (if iA = false then xorW (andW x0 (xorW c1 y1)) b0 else xorW (andW (notW x0) (xorW c1 y1)) b0))
          (recvP2 c0 d0 (xorW a1 x1))
        if iC then notW z else z),
      xorW (xorW (xorW (andW x1 (if iB = false then xorW c0 y0 else xorW c0 (notW y0))) b1)
        (recvP2 c1 d1 (if iA = false then xorW a0 x0 else notW (xorW a0 x0)))) (andW x1 y1), ?_, ?_, ?_, ?_, ?_, ?_, ?_, ?_, ?_, ?_, ?_⟩
    · simp only [multSend, sendP1, sendP2, eA, eB, ok_bind, if_true]
    · simp only [multSend, sendP1, sendP2, invertA, invertB, ok_bind, if_true]
      rw [if_neg (by decide)]
    · cases iA <;> simp [ha0, hx0]
    · cases iB <;> simp [hc0, hy0]
    · simp [hc1, hy1]
    · simp [ha1, hx1]
    · simp only [multRecv, recvP1, eA, eB, eC, ok_bind, if_true]
    · simp only [multRecv, recvP1, invertA, ok_bind, if_true]
      rw [if_neg (by decide)]
    · cases iA <;> cases iB <;> cases iC <;> simp [recvP2, hx0, hy0, hc1, hy1, hb0, hc0, ha1, hx1, hd0]
    · cases iA <;> cases iB <;> simp [recvP2, hx0, hy0, hc1, hy1, hc0, ha0, hx1, hd1, hb1]
    · intro k hk
      rw [ht, ← mult_bit iA iB iC (wbit x0 k) (wbit y0 k) (wbit x1 k) (wbit y1 k) (wbit a0 k) (wbit c0 k) (wbit a1 k)
        (wbit c1 k) (wbit b0 k) (wbit b1 k) (wbit d0 k) (wbit d1 k) (v0 k hk) (v1 k hk)]
      congr 1
      · cases iA <;> cases iB <;> cases iC <;>
          simp (discharger := simp [*]) only [recvP2, if_true, if_false, Bool.true_eq_false, Bool.false_eq_true,
            wbit_xor (W := W) _ _ hk, wbit_and (W := W) _ _ hk, wbit_not (W := W) _ hk, Bool.xor_false, Bool.xor_true]
      · cases iA <;> cases iB <;>
          simp (discharger := simp [*]) only [recvP2, if_true, if_false, Bool.true_eq_false, Bool.false_eq_true,
            wbit_xor (W := W) _ _ hk, wbit_and (W := W) _ _ hk, wbit_not (W := W) _ hk, Bool.xor_false, Bool.xor_true]
        all_goals simp
  cases gt <;> simp [kind] at hk
  all_goals
    first
    | exact key true true false rfl rfl rfl (by decide)
    | exact key true false false rfl rfl rfl (by decide)
    | exact key false true false rfl rfl rfl (by decide)
    | exact key false false true rfl rfl rfl (by decide)
    | exact key false false false rfl rfl rfl (by decide)
    | exact key true false true rfl rfl rfl (by decide)
    | exact key true true true rfl rfl rfl (by decide)

end Gmw
end SecJoin
