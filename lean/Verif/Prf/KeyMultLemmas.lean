import Verif.Prf.ProtoLemmas
/-!
# Lemmas on the key multiplication
-/
namespace SecJoin
namespace AltMod

open Mod3

/-- The digit of an input, which is a bit if there is no high part. -/
def xDigit (x : Option Block × Block) (p : Nat) : Nat :=
  match x with
  | (some x1, x0) => trit x1 x0 p
  | (none, x0) => bit x0 p

/-- An input block is valid. -/
def XValid (x : Option Block × Block) : Prop := ∀ p, p < 128 → xDigit x p < 3

theorem XValid.of_some {x1 x0 : Block} (h : XValid (some x1, x0)) : Valid x1 x0 := h

theorem trit_addX {s : Block × Block} {x : Option Block × Block} (hs : Valid s.1 s.2) (hx : XValid x) :
    ∀ p, p < 128 → trit (addX s x).1 (addX s x).2 p = (trit s.1 s.2 p + xDigit x p) % 3 := by
  obtain ⟨x1 | x1, x0⟩ := x
  · exact C47_addBit hs
  · exact C47_add hs hx.of_some

theorem trit_subX {s : Block × Block} {x : Option Block × Block} (hs : Valid s.1 s.2) (hx : XValid x) :
    ∀ p, p < 128 → trit (subX s x).1 (subX s x).2 p = (trit s.1 s.2 p + 3 - xDigit x p) % 3 := by
  obtain ⟨x1 | x1, x0⟩ := x
  · exact C47_subBit hs
  · exact C47_sub hs hx.of_some

theorem trit_incX {s : Block × Block} {x : Option Block × Block} (hs : Valid s.1 s.2) (hx : XValid x) :
    ∀ p, p < 128 → trit (incX s x).1 (incX s x).2 p = (trit s.1 s.2 p + xDigit x p) % 3 := by
  obtain ⟨x1 | x1, x0⟩ := x
  · exact C47_incBit hs
  · exact C47_add hs hx.of_some

theorem trit_neg {s : Block × Block} (hs : Valid s.1 s.2) :
    ∀ p, p < 128 → trit s.2 s.1 p = (3 - trit s.1 s.2 p) % 3 := by
  intro p hp
  have := hs p hp
  revert this
  simp only [trit]
  cases s.1.getLsbD p <;> cases s.2.getLsbD p <;> decide

/-- One block of the product: both shares are digits and they add up to the input where exactly one key share is set. -/
def KmOk (k0 k1 : Bool) (x : Option Block × Block) (a b : Block × Block) : Prop :=
  Valid a.1 a.2 ∧ Valid b.1 b.2 ∧ ∀ p, p < 128 → (trit a.1 a.2 p + trit b.1 b.2 p) % 3 = if (k0 ^^ k1) then xDigit x p else 0

theorem km_elt {s : Block × Block} {x : Option Block × Block} (hs : Valid s.1 s.2) (hx : XValid x) (k0 k1 : Bool) :
    KmOk k0 k1 x (if k0 then incX (s.2, s.1) x else (s.2, s.1)) (if k1 then (if k0 then subX s x else addX s x) else s) := by
  have hn : Valid s.2 s.1 := by
    intro p hp
    rw [trit_neg hs p hp]
    omega
  have h1 := trit_addX hs hx
  have h2 := trit_subX hs hx
  have h3 := trit_incX (s := (s.2, s.1)) hn hx
  have h4 := trit_neg hs
  refine ⟨fun p hp => ?_, fun p hp => ?_, fun p hp => ?_⟩
  · cases k0
    · exact hn p hp
    · rw [if_pos rfl, h3 p hp]; omega
  · cases k1
    · exact hs p hp
    · cases k0
      · simp only [if_true]
        rw [if_neg (by simp), h1 p hp]; omega
      · simp only [if_true]
        rw [h2 p hp]; omega
  · have a1 := h1 p hp
    have a2 := h2 p hp
    have a3 := h3 p hp
    have a4 := h4 p hp
    have a5 := hs p hp
    have a6 := hx p hp
    simp only at a3
    cases k0 <;> cases k1 <;> simp only [if_true, Bool.false_eq_true, if_false, Bool.xor_false, Bool.xor_true, Bool.not_false, Bool.not_true]
    · omega
    · omega
    · omega
    · omega

theorem xorVec_length (G : Prg) (v : List Block) (g : Gen) : (G.xorVec v g).1.length = v.length := by
  simp [Prg.xorVec]

theorem xorVec_cancel (G : Prg) (v : List Block) (g : Gen) : G.xorVec (G.xorVec v g).1 g = (v, (G.xorVec v g).2) := by
  have hl := xorVec_length G v g
  simp only [Prg.xorVec, Prod.mk.injEq]
  simp only [Prg.xorVec] at hl
  refine ⟨?_, by rw [hl]⟩
  rw [hl]
  apply List.ext_getElem
  · simp
  · intro i h1 h2
    simp [BitVec.xor_assoc]

/-- The samples are digits (C48). -/
def Prg.Ok (G : Prg) : Prop := ∀ g n, (G.sample g n).1.length = n ∧ ∀ s ∈ (G.sample g n).1, Valid s.1 s.2

theorem km_row {G : Prg} (hG : G.Ok) (k0 k1 : Bool) (g0 g1 : Gen) (x : List (Option Block × Block)) (hx : ∀ a ∈ x, XValid a) :
    ∃ msg out n0 n1 o, kmSendRow G k0 g0 g1 x = (msg, out, n0, n1) ∧
      kmRecvRow G k1 (if k1 then g1 else g0) x.length msg = .ok (o, if k1 then n1 else n0) ∧
      out.length = x.length ∧ o.length = x.length ∧
      ∀ j, j < x.length → KmOk k0 k1 (x.getD j (none, 0)) (out.getD j (0, 0)) (o.getD j (0, 0)) := by
  obtain ⟨hl, hv⟩ := hG g0 x.length
  generalize hs : G.sample g0 x.length = sg at *
  obtain ⟨s, n0⟩ := sg
  simp only at hl hv
  obtain ⟨m, hm⟩ : ∃ m, m = if k0 then List.zipWith subX s x else List.zipWith addX s x := ⟨_, rfl⟩
  have cm : m.length = x.length := by rw [hm]; cases k0 <;> simp [hl]
  have gs : ∀ j, j < x.length → Valid (s.getD j (0, 0)).1 (s.getD j (0, 0)).2 := by
    intro j hj
    rw [List.getD_eq_getElem?_getD, List.getElem?_eq_getElem (by omega), Option.getD_some]
    exact hv _ (List.getElem_mem _)
  have gx : ∀ j, j < x.length → XValid (x.getD j (none, 0)) := by
    intro j hj
    rw [List.getD_eq_getElem?_getD, List.getElem?_eq_getElem hj, Option.getD_some]
    exact hx _ (List.getElem_mem _)
  have gm : ∀ j, j < x.length → m.getD j (0, 0) = if k0 then subX (s.getD j (0, 0)) (x.getD j (none, 0)) else addX (s.getD j (0, 0)) (x.getD j (none, 0)) := by
    intro j hj
    rw [hm]
    cases k0
    · exact zw_getD (0, 0) (none, 0) _ (by omega) hj
    · exact zw_getD (0, 0) (none, 0) _ (by omega) hj
  obtain ⟨out, ho⟩ : ∃ out, out = if k0 then List.zipWith incX (s.map fun a => (a.2, a.1)) x else (s.map fun a => (a.2, a.1)) := ⟨_, rfl⟩
  have co : out.length = x.length := by rw [ho]; cases k0 <;> simp [hl]
  have go : ∀ j, j < x.length → out.getD j (0, 0) = if k0 then incX ((s.getD j (0, 0)).2, (s.getD j (0, 0)).1) (x.getD j (none, 0)) else
      ((s.getD j (0, 0)).2, (s.getD j (0, 0)).1) := by
    intro j hj
    rw [ho]
    cases k0
    · simp only [Bool.false_eq_true, if_false]
      rw [map_getD (0, 0) _ (by omega)]
    · simp only [if_true]
      rw [zw_getD (0, 0) (none, 0) _ (by simp; omega) hj, map_getD (0, 0) _ (by omega)]
  have hhi := xorVec_cancel G (m.map (·.1)) g1
  have hli := xorVec_length G (m.map (·.1)) g1
  generalize hx1 : G.xorVec (m.map (·.1)) g1 = hg at *
  obtain ⟨hi, g1'⟩ := hg
  have hlo := xorVec_cancel G (m.map (·.2)) g1'
  have hll := xorVec_length G (m.map (·.2)) g1'
  generalize hx2 : G.xorVec (m.map (·.2)) g1' = lg at *
  obtain ⟨lo, g1''⟩ := lg
  simp only [List.length_map] at hhi hlo hli hll
  have hsize : (hi.length + lo.length != 2 * x.length) = false := by
    simp only [bne_eq_false_iff_eq]
    omega
  have hsend : kmSendRow G k0 g0 g1 x = ((hi, lo), out, n0, g1'') := by
    simp only [kmSendRow, hs, ← hm, ← ho, hx1, hx2]
  cases hk1 : k1
  · refine ⟨(hi, lo), out, n0, g1'', s, hsend, ?_, co, hl, fun j hj => ?_⟩
    · simp only [kmRecvRow, hsize, throwIf_false, ok_bind, Bool.false_eq_true, if_false, hs]
    · rw [go j hj]
      have := km_elt (gs j hj) (gx j hj) k0 false
      simpa using this
  · refine ⟨(hi, lo), out, n0, g1'', m, hsend, ?_, co, cm, fun j hj => ?_⟩
    · simp only [kmRecvRow, hsize, throwIf_false, ok_bind, if_true, hhi, hlo]
      congr 2
      apply List.ext_getElem
      · simp
      · intro i h1 h2
        simp
    · rw [go j hj, gm j hj]
      have := km_elt (gs j hj) (gx j hj) k0 true
      simpa using this

/-- The receiver holds the chosen generator of every row. -/
def GensOk (k1 : List Bool) (gs : List (Gen × Gen)) (hs : List Gen) : Prop :=
  k1.length = gs.length ∧ hs = List.zipWith (fun (k : Bool) (g : Gen × Gen) => if k then g.2 else g.1) k1 gs

theorem keyMult_ok {G : Prg} (hG : G.Ok) (n : Nat) : ∀ (k0 k1 : List Bool) (gs : List (Gen × Gen)) (x : List (List (Option Block × Block)))
    (hs : List Gen), k0.length = x.length → k1.length = x.length → GensOk k1 gs hs → (∀ r ∈ x, r.length = n ∧ ∀ a ∈ r, XValid a) →
    ∃ a gs' b hs', keyMult G n k0 gs x k1 hs = .ok (a, gs', b, hs') ∧ GensOk k1 gs' hs' ∧ a.length = x.length ∧ b.length = x.length ∧
      ∀ i, i < x.length → (a.getD i []).length = n ∧ (b.getD i []).length = n ∧ ∀ j, j < n →
        KmOk (k0.getD i false) (k1.getD i false) ((x.getD i []).getD j (none, 0)) ((a.getD i []).getD j (0, 0)) ((b.getD i []).getD j (0, 0)) := by
  intro k0 k1 gs x
  induction x generalizing k0 k1 gs with
  | nil =>
    intro hs h0 h1 hg _
    obtain ⟨g1, g2⟩ := hg
    rw [List.length_nil] at h0 h1
    obtain rfl := List.length_eq_zero_iff.1 h0
    obtain rfl := List.length_eq_zero_iff.1 h1
    obtain rfl := List.length_eq_zero_iff.1 (show gs.length = 0 by simpa using g1.symm)
    subst g2
    exact ⟨[], [], [], [], rfl, ⟨rfl, rfl⟩, rfl, rfl, fun i hi => absurd hi (by simp)⟩
  | cons r x ih =>
    intro hs h0 h1 hg hx
    obtain ⟨g1, g2⟩ := hg
    match k0, k1, gs, h0, h1, g1, g2 with
    | k0 :: ks0, k1 :: ks1, (a0, a1) :: gs, h0, h1, g1, g2 =>
      subst g2
      obtain ⟨hr, hrx⟩ := hx r (by simp)
      obtain ⟨msg, out, n0, n1, o, e1, e2, l1, l2, e3⟩ := km_row hG k0 k1 a0 a1 r hrx
      obtain ⟨a, gs', b, hs', f1, f2, f3, f4, f5⟩ := ih ks0 ks1 gs _ (by simpa using h0) (by simpa using h1) ⟨by simpa using g1, rfl⟩
        (fun y hy => hx y (by simp [hy]))
      rw [hr] at e2
      refine ⟨out :: a, (n0, n1) :: gs', o :: b, (if k1 then n1 else n0) :: hs', ?_, ?_, by simp [f3], by simp [f4], ?_⟩
      · rw [List.zipWith_cons_cons, keyMult]
        simp only [e1, e2, ok_bind, f1]
      · obtain ⟨q1, q2⟩ := f2
        exact ⟨by simp [q1], by rw [q2]; rfl⟩
      · intro i hi
        cases i with
        | zero => exact ⟨by simpa [l1] using hr, by simpa [l2] using hr, fun j hj => e3 j (by omega)⟩
        | succ i => exact f5 i (by simpa using hi)

end AltMod
end SecJoin
