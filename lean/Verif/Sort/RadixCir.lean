import Verif.Sort.RadixGmwLemmas
import Verif.GMW.InlineProps
/-!
# Circuits that meet the requirements `HotCir` and `AddCir`

The levels of the code's circuits are made by the library, which is not part of the code. Here are circuits, one gate in each level, that
compute what is required: the gates of `initIndexToOneHotCircuit` with a gate for the constant, and a ripple-carry adder.
-/
namespace SecJoin
namespace Gmw

theorem evalOps_gates (gs : List Gate) (v : Nat → Bool) : evalOps (gs.map Op.gate) v = evalGates gs v := by
  induction gs generalizing v with
  | nil => rfl
  | cons g gs ih => exact ih _

namespace Wires

theorem DefinedFrom.mono : ∀ {gs : List Gate} {D D' : List Nat}, DefinedFrom D gs → (∀ x ∈ D, x ∈ D') → DefinedFrom D' gs
  | [], _, _, _, _ => trivial
  | g :: gs, D, D', h, hs => ⟨fun o ho => hs _ (h.1 o ho), h.2.mono fun x hx => by
      rcases List.mem_cons.1 hx with rfl | hx
      · exact List.mem_cons_self
      · exact List.mem_cons_of_mem _ (hs x hx)⟩

theorem DefinedFrom.append : ∀ {a b : List Gate} {D : List Nat}, DefinedFrom D a → DefinedFrom (a.map Gate.out ++ D) b → DefinedFrom D (a ++ b)
  | [], _, _, _, h => h
  | g :: a, b, D, h, h' => ⟨h.1, h.2.append (h'.mono fun x hx => by
      simp only [List.map_cons, List.cons_append, List.mem_cons, List.mem_append] at hx ⊢
      rcases hx with h | h | h
      · exact .inr (.inl h)
      · exact .inl h
      · exact .inr (.inr h))⟩

end Wires
end Gmw

namespace Radix
open Gmw
open Gmw.Wires (Cir Computes DefinedFrom)

/-- The gates for the nodes before `m`. -/
def hotPre (L m : Nat) : List Gate :=
  (List.range m).flatMap fun i =>
    [⟨nodeWire L i, L - 1 - Nat.log2 (i + 1), nodeWire L ((i + 1) * 2), .and⟩,
     ⟨nodeWire L i, nodeWire L ((i + 1) * 2), nodeWire L ((i + 1) * 2 - 1), .xor⟩]

def hotCircuit (L : Nat) : Gmw.Circuit where
  wireCount := L + 2 ^ L + 2 ^ L
  inputs := [List.range' 0 L]
  outputs := [List.range' L (2 ^ L)]
  gates := ⟨0, 0, nodeWire L 0, .nxor⟩ :: hotPre L (2 ^ L - 1)
  flag _ := .plain

theorem hotPre_succ (L m : Nat) : hotPre L (m + 1) = hotPre L m ++
    [⟨nodeWire L m, L - 1 - Nat.log2 (m + 1), nodeWire L ((m + 1) * 2), .and⟩,
     ⟨nodeWire L m, nodeWire L ((m + 1) * 2), nodeWire L ((m + 1) * 2 - 1), .xor⟩] := by
  simp [hotPre, List.range_succ]

theorem nodeWire_lt {L t : Nat} (h : t < 2 ^ (L + 1) - 1) : nodeWire L t < L + 2 ^ L + 2 ^ L := by
  have h2 : 2 ^ (L + 1) = 2 * 2 ^ L := by rw [Nat.pow_succ]; omega
  have := Nat.two_pow_pos L
  unfold nodeWire
  split <;> omega

theorem log_lt {L m : Nat} (h : m < 2 ^ L - 1) : Nat.log2 (m + 1) < L := by
  rw [Nat.log2_lt (by omega)]; omega

theorem hotPre_defined (L : Nat) : ∀ m, m ≤ 2 ^ L - 1 → DefinedFrom (nodeWire L 0 :: List.range' 0 L) (hotPre L m) ∧
    ∀ t, t ≤ 2 * m → nodeWire L t ∈ (hotPre L m).map Gate.out ++ (nodeWire L 0 :: List.range' 0 L)
  | 0, _ => ⟨trivial, fun t ht => by
      obtain rfl : t = 0 := by omega
      exact List.mem_append_right _ List.mem_cons_self⟩
  | m + 1, h => by
    obtain ⟨h1, h2⟩ := hotPre_defined L m (by omega)
    rw [hotPre_succ]
    refine ⟨h1.append ⟨fun o ho => ?_, fun o ho => ?_, trivial⟩, fun t ht => ?_⟩
    · rcases ho with rfl | ⟨-, rfl⟩
      · exact h2 m (by omega)
      · have := log_lt (L := L) (m := m) (by omega)
        refine List.mem_append_right _ (List.mem_cons_of_mem _ ?_)
        rw [List.mem_range'_1]
        dsimp only
        omega
    · rcases ho with rfl | ⟨-, rfl⟩
      · exact List.mem_cons_of_mem _ (h2 m (by omega))
      · exact List.mem_cons_self
    · rw [List.map_append, List.append_assoc, List.map_cons, List.map_cons, List.map_nil]
      rcases (show t = (m + 1) * 2 ∨ t = (m + 1) * 2 - 1 ∨ t ≤ 2 * m by omega) with rfl | rfl | h3
      · simp
      · simp
      · have := h2 t h3
        simp only [List.mem_append] at this ⊢
        rcases this with h | h
        · exact .inl h
        · exact .inr (.inr h)

theorem hotPre_ok {L m : Nat} (h : m ≤ 2 ^ L - 1) : ∀ g ∈ hotPre L m, GateOk (L + 2 ^ L + 2 ^ L) g := by
  intro g hg
  simp only [hotPre, List.mem_flatMap, List.mem_range] at hg
  obtain ⟨i, hi, hg⟩ := hg
  have h2 : 2 ^ (L + 1) = 2 * 2 ^ L := by rw [Nat.pow_succ]; omega
  have a := nodeWire_lt (L := L) (t := i) (by omega)
  have b := nodeWire_lt (L := L) (t := (i + 1) * 2) (by omega)
  have c := nodeWire_lt (L := L) (t := (i + 1) * 2 - 1) (by omega)
  have d := log_lt (L := L) (m := i) (by omega)
  simp only [List.mem_cons, List.not_mem_nil, or_false] at hg
  rcases hg with rfl | rfl
  · exact ⟨a, by dsimp only; omega, b, by simp [kind]⟩
  · exact ⟨a, b, c, by simp [kind]⟩

/-- The gates of the code's one-hot circuit, one in each level, are as required. -/
theorem hotCir_exists {L : Nat} (hL : 0 < L) :
    HotCir L ⟨(hotCircuit L).wireCount, (hotCircuit L).inputs, (hotCircuit L).outputs, (hotCircuit L).gates.map fun g => [g]⟩ := by
  refine ⟨⟨0, rfl⟩, ⟨L, rfl⟩, Gmw.Wires.Levelled.computes (c := hotCircuit L) (Gmw.Wires.levelled_single (by simp [hotCircuit]) ?_ ?_ ?_) ?_ _ ?_⟩
  · intro g hg
    have hp := Nat.two_pow_pos L
    rcases List.mem_cons.1 hg with rfl | hg
    · have h2 : 2 ^ (L + 1) = 2 * 2 ^ L := by rw [Nat.pow_succ]; omega
      have := nodeWire_lt (L := L) (t := 0) (by omega)
      exact ⟨by simp [hotCircuit], by simp [hotCircuit], this, by simp [kind]⟩
    · exact hotPre_ok (Nat.le_refl _) g hg
  · refine ⟨fun o ho => ?_, ?_⟩
    · rcases ho with rfl | ⟨-, rfl⟩ <;> simp [hotCircuit, List.mem_range'_1, hL]
    · refine ((hotPre_defined L _ (Nat.le_refl _)).1).mono fun x hx => ?_
      simpa [hotCircuit] using hx
  · intro o ho
    rw [hotCircuit, List.flatten_singleton, List.mem_range'_1] at ho
    right
    have h2 := (hotPre_defined L _ (Nat.le_refl _)).2 (2 ^ L - 1 + (o - L)) (by omega)
    have hw : nodeWire L (2 ^ L - 1 + (o - L)) = o := by
      unfold nodeWire; rw [if_neg (by omega)]; omega
    rw [hw] at h2
    rw [hotCircuit, List.map_cons]
    rcases List.mem_append.1 h2 with h | h
    · exact List.mem_cons_of_mem _ h
    · rcases List.mem_cons.1 h with h | h
      · rw [h]; exact List.mem_cons_self
      · rw [List.mem_range'_1] at h; omega
  · refine ⟨fun x hx => ?_, ?_⟩
    · simp only [hotCircuit, List.cons_append, List.nil_append, List.flatten_cons, List.flatten_nil, List.append_nil, List.mem_append, List.mem_range'_1] at hx ⊢
      have := Nat.two_pow_pos L
      omega
    · simp only [hotCircuit, List.cons_append, List.nil_append, List.flatten_cons, List.flatten_nil, List.append_nil]
      rw [List.nodup_append]
      refine ⟨List.nodup_range', List.nodup_range', fun a ha b hb => ?_⟩
      rw [List.mem_range'_1] at ha hb
      omega
  · intro x v hv i b hb j o hjo
    obtain ⟨rfl, rfl⟩ : i = 0 ∧ b = List.range' L (2 ^ L) := by
      cases i with
      | zero => simp [hotCircuit] at hb; exact ⟨rfl, hb.symm⟩
      | succ i => simp [hotCircuit] at hb
    obtain ⟨hj, rfl⟩ := List.getElem?_eq_some_iff.1 hjo
    rw [List.length_range'] at hj
    rw [List.getElem_range', Nat.one_mul]
    rw [oneHot_congr (y := v) (fun t ht => (hv 0 _ rfl t t (by rw [List.getElem?_range' ht]; simp)).symm) hj]
    unfold oneHot
    have e : oneHotOps L = (hotPre L (2 ^ L - 1)).map Op.gate := by
      simp only [oneHotOps, hotPre, List.map_flatMap, List.map_cons, List.map_nil]
    rw [e, evalOps_gates]
    show evalGates (hotPre L (2 ^ L - 1)) (evalGate ⟨0, 0, nodeWire L 0, .nxor⟩ v) _ = _
    congr 1
    funext w
    unfold evalGate
    by_cases hw : w = nodeWire L 0
    · rw [if_pos hw, if_pos hw]; simp [table]
    · rw [if_neg hw, if_neg hw]

/-! ## A ripple-carry adder -/

/-- The gates for bit `j`: with `a`, `b` and the carry `c` the sum is `a ^ c ^ b` and the next carry `c ^ ((a ^ c) & (b ^ c))`. Inputs are the
wires from 0 and from `w`, outputs from `2 w`, carries from `3 w`, and two wires for intermediate values. -/
def addBit (w j : Nat) : List Gate :=
  [⟨j, 3 * w + j, 4 * w + 1, .xor⟩, ⟨w + j, 3 * w + j, 4 * w + 2, .xor⟩, ⟨4 * w + 1, w + j, 2 * w + j, .xor⟩,
   ⟨4 * w + 1, 4 * w + 2, 4 * w + 1, .and⟩, ⟨4 * w + 1, 3 * w + j, 3 * w + j + 1, .xor⟩]

def addPre (w m : Nat) : List Gate := ⟨0, 0, 3 * w, .xor⟩ :: (List.range m).flatMap (addBit w)

def addCircuit (w : Nat) : Gmw.Circuit where
  wireCount := 4 * w + 3
  inputs := [List.range' 0 w, List.range' w w]
  outputs := [List.range' (2 * w) w]
  gates := addPre w w
  flag _ := .plain

theorem addPre_succ (w m : Nat) : addPre w (m + 1) = addPre w m ++ addBit w m := by
  simp [addPre, List.range_succ]

theorem bitsNat_succ : ∀ (m : Nat) (f : Nat → Bool), bitsNat (m + 1) f = bitsNat m f + 2 ^ m * (f m).toNat
  | 0, f => by simp [bitsNat]
  | m + 1, f => by
    rw [bitsNat, bitsNat_succ m, bitsNat, Nat.pow_succ]
    ring

theorem bitsNat_congr {m : Nat} {f g : Nat → Bool} (h : ∀ j, j < m → f j = g j) : bitsNat m f = bitsNat m g := by
  refine Nat.eq_of_testBit_eq fun j => ?_
  rw [bitsNat_testBit, bitsNat_testBit]
  by_cases hj : j < m
  · rw [h j hj]
  · rw [decide_eq_false hj]; rfl

theorem addPre_inv {w : Nat} (hw : 0 < w) (v : Nat → Bool) : ∀ m, m ≤ w →
    (∀ x, x < 2 * w → evalGates (addPre w m) v x = v x) ∧
    bitsNat m (fun j => evalGates (addPre w m) v (2 * w + j)) + 2 ^ m * (evalGates (addPre w m) v (3 * w + m)).toNat =
      bitsNat m v + bitsNat m fun j => v (w + j)
  | 0, _ => by
    have e : addPre w 0 = [⟨0, 0, 3 * w, .xor⟩] := rfl
    rw [e]
    refine ⟨fun x hx => ?_, ?_⟩
    · simp only [evalGates, evalGate]
      rw [if_neg (by omega)]
    · simp [bitsNat, evalGates, evalGate, table]
  | m + 1, h => by
    obtain ⟨h1, h2⟩ := addPre_inv hw v m (by omega)
    rw [addPre_succ, evalGates_append]
    generalize evalGates (addPre w m) v = u at h1 h2
    have hv : ∀ x, x < 2 * w + m ∨ (x < 3 * w ∧ 2 * w + m < x) → evalGates (addBit w m) u x = u x := fun x hx => by
      simp only [addBit, evalGates, evalGate]
      rw [if_neg (by omega), if_neg (by omega), if_neg (by omega), if_neg (by omega), if_neg (by omega)]
    have hs : evalGates (addBit w m) u (2 * w + m) = ((v m ^^ u (3 * w + m)) ^^ v (w + m)) := by
      rw [← h1 m (by omega), ← h1 (w + m) (by omega)]
      simp only [addBit, evalGates, evalGate, table]
      repeat' first | rw [if_pos trivial] | rw [if_neg (by omega)]
    have hc : evalGates (addBit w m) u (3 * w + (m + 1)) =
        (((v m ^^ u (3 * w + m)) && (v (w + m) ^^ u (3 * w + m))) ^^ u (3 * w + m)) := by
      rw [← h1 m (by omega), ← h1 (w + m) (by omega)]
      simp only [addBit, evalGates, evalGate, table]
      rw [if_pos (by omega)]
      repeat' first | rw [if_pos trivial] | rw [if_neg (by omega)]
    refine ⟨fun x hx => by rw [hv x (by omega), h1 x hx], ?_⟩
    rw [bitsNat_succ, bitsNat_succ, bitsNat_succ, hs, hc, bitsNat_congr (g := fun j => u (2 * w + j)) fun j hj => hv _ (by omega), Nat.pow_succ]
    generalize bitsNat m (fun j => u (2 * w + j)) = A at h2 ⊢
    generalize bitsNat m v = B at h2 ⊢
    generalize bitsNat m (fun j => v (w + j)) = C at h2 ⊢
    generalize 2 ^ m = P at h2 ⊢
    generalize u (3 * w + m) = c at h2 ⊢
    cases c <;> cases v m <;> cases v (w + m) <;> simp at h2 ⊢ <;> omega

theorem addPre_defined (w : Nat) (hw : 0 < w) : ∀ m, m ≤ w → DefinedFrom (List.range' 0 w ++ List.range' w w) (addPre w m) ∧
    (∀ j, j ≤ m → 3 * w + j ∈ (addPre w m).map Gate.out) ∧ ∀ j, j < m → 2 * w + j ∈ (addPre w m).map Gate.out
  | 0, _ => ⟨⟨fun o ho => by rcases ho with rfl | ⟨-, rfl⟩ <;> simp [List.mem_range'_1, hw], trivial⟩, fun j hj => by
      obtain rfl : j = 0 := by omega
      simp [addPre], fun j hj => by omega⟩
  | m + 1, h => by
    obtain ⟨h1, h2, h3⟩ := addPre_defined w hw m (by omega)
    have hin : ∀ x, x < 2 * w → x ∈ List.range' 0 w ++ List.range' w w := fun x hx => by
      simp only [List.mem_append, List.mem_range'_1]; omega
    rw [addPre_succ]
    refine ⟨h1.append ?_, fun j hj => ?_, fun j hj => ?_⟩
    · have a := h2 m (Nat.le_refl _)
      have b := hin m (by omega)
      have c := hin (w + m) (by omega)
      generalize List.range' 0 w ++ List.range' w w = D at b c
      generalize (addPre w m).map Gate.out = O at a
      refine ⟨fun o ho => ?_, fun o ho => ?_, fun o ho => ?_, fun o ho => ?_, fun o ho => ?_, trivial⟩ <;>
        rcases ho with rfl | ⟨-, rfl⟩ <;> simp [a, b, c]
    · rw [List.map_append]
      rcases (show j ≤ m ∨ j = m + 1 by omega) with hj | rfl
      · exact List.mem_append_left _ (h2 j hj)
      · refine List.mem_append_right _ ?_
        simp [addBit]; omega
    · rw [List.map_append]
      rcases (show j < m ∨ j = m by omega) with hj | rfl
      · exact List.mem_append_left _ (h3 j hj)
      · refine List.mem_append_right _ ?_
        simp [addBit]

/-- A ripple-carry adder, one gate in each level, is as required. -/
theorem addCir_exists {w : Nat} (hw : 0 < w) :
    AddCir w ⟨(addCircuit w).wireCount, (addCircuit w).inputs, (addCircuit w).outputs, (addCircuit w).gates.map fun g => [g]⟩ := by
  refine ⟨⟨0, w, rfl⟩, ⟨2 * w, rfl⟩, Gmw.Wires.Levelled.computes (c := addCircuit w) (Gmw.Wires.levelled_single (by simp [addCircuit, addPre]) ?_ ?_ ?_) ?_ _ ?_⟩
  · intro g hg
    show GateOk (4 * w + 3) g
    rcases List.mem_cons.1 hg with rfl | hg
    · exact ⟨by dsimp only; omega, by dsimp only; omega, by dsimp only; omega, by simp [kind]⟩
    · simp only [List.mem_flatMap, List.mem_range, addBit, List.mem_cons, List.not_mem_nil, or_false] at hg
      obtain ⟨j, hj, hg⟩ := hg
      rcases hg with rfl | rfl | rfl | rfl | rfl <;>
        exact ⟨by dsimp only; omega, by dsimp only; omega, by dsimp only; omega, by simp [kind]⟩
  · refine ((addPre_defined w hw w (Nat.le_refl _)).1).mono fun x hx => ?_
    simpa [addCircuit] using hx
  · intro o ho
    rw [addCircuit, List.flatten_singleton, List.mem_range'_1] at ho
    right
    have := (addPre_defined w hw w (Nat.le_refl _)).2.2 (o - 2 * w) (by omega)
    rwa [show 2 * w + (o - 2 * w) = o by omega] at this
  · refine ⟨fun x hx => ?_, ?_⟩
    · simp only [addCircuit, List.cons_append, List.nil_append, List.flatten_cons, List.flatten_nil, List.append_nil, List.mem_append, List.mem_range'_1] at hx ⊢
      omega
    · simp only [addCircuit, List.cons_append, List.nil_append, List.flatten_cons, List.flatten_nil, List.append_nil]
      rw [List.nodup_append, List.nodup_append]
      refine ⟨List.nodup_range', ⟨List.nodup_range', List.nodup_range', fun a ha b hb => ?_⟩, fun a ha b hb => ?_⟩
      · rw [List.mem_range'_1] at ha hb; omega
      · rw [List.mem_range'_1] at ha
        rw [List.mem_append, List.mem_range'_1, List.mem_range'_1] at hb; omega
  · intro x v hv i b hb j o hjo
    obtain ⟨rfl, rfl⟩ : i = 0 ∧ b = List.range' (2 * w) w := by
      cases i with
      | zero => simp [addCircuit] at hb; exact ⟨rfl, hb.symm⟩
      | succ i => simp [addCircuit] at hb
    obtain ⟨hj, rfl⟩ := List.getElem?_eq_some_iff.1 hjo
    rw [List.length_range'] at hj
    rw [List.getElem_range', Nat.one_mul]
    have h := (addPre_inv hw v w (Nat.le_refl _)).2
    rw [bitsNat_congr (f := v) (g := x 0) fun t ht => hv 0 _ rfl t t (by rw [List.getElem?_range' ht]; simp),
      bitsNat_congr (f := fun j => v (w + j)) (g := x 1) fun t ht => hv 1 _ rfl t (w + t) (by rw [List.getElem?_range' ht]; simp)] at h
    rw [← h, Nat.add_mul_mod_self_left, Nat.mod_eq_of_lt (bitsNat_lt _ _), bitsNat_testBit, decide_eq_true hj]
    rfl

end Radix
end SecJoin
