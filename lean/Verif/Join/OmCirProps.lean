import Verif.Join.OmCirLemmas
import Verif.Join.OmGmwProps
/-!
# C31: the circuits of the code meet the requirements of the protocols

The theorems on the protocols (`C31_gmw`, `C32_gmw`, and those of the group-by) are for every circuit that computes the comparison. Here: every
distribution to levels of the circuit that the code builds is one, and there is one.
-/
namespace SecJoin
namespace OmJoin
open Gmw.Wires (Env Cir Levelled)

/-- **C31 for the circuit of the code.** Whatever levels the library makes of the gates, the circuit computes the comparison. -/
theorem C31_circuit {bits : Nat} (hb : 0 < bits) {levels : List (List Gmw.Gate)} (h : Levelled (ctrlCircuit bits) levels) :
    Cir2 bits bits (ctrlBit bits) ⟨(ctrlCircuit bits).wireCount, (ctrlCircuit bits).inputs, (ctrlCircuit bits).outputs, levels⟩ := by
  refine ⟨⟨0, bits, rfl⟩, ⟨2 * bits, rfl⟩, h.computes (ctrl_bundles hb) _ fun x v hv i b hib j o hjo => ?_⟩
  obtain ⟨rfl, rfl⟩ : i = 0 ∧ b = List.range' (2 * bits) 1 := by
    cases i with
    | zero => simp [ctrlCircuit] at hib; exact ⟨rfl, hib.symm⟩
    | succ i => simp [ctrlCircuit] at hib
  obtain rfl : o = 2 * bits := by
    have := List.mem_of_getElem? hjo
    rw [List.mem_range'_1] at this
    omega
  exact ctrl_value hb x v hv

/-- The circuit can be levelled: every gate reads inputs and results of earlier gates, every wire exists, and the output is set. -/
theorem C31_circuit_levels {bits : Nat} (hb : 0 < bits) : Levelled (ctrlCircuit bits) ((ctrlCircuit bits).gates.map fun g => [g]) := by
  obtain ⟨h1, h2, h3, -⟩ := ctrl_wf hb
  refine Gmw.Wires.levelled_single (fun e => by rw [e] at h3; simp at h3) h1 h2 fun o ho => ?_
  obtain rfl : o = 2 * bits := by
    rw [ctrlCircuit, List.flatten_singleton, List.mem_range'_1] at ho
    omega
  exact .inr h3

/-- **C31 with GMW and the circuit of the code**, in the words of `C31_gmw`. -/
theorem C31_gmw_circuit {E : Env} {n bits : Nat} (hn : 0 < n) (hb : 0 < bits) {levels : List (List Gmw.Gate)} (h : Levelled (ctrlCircuit bits) levels)
    (hE : E.Ok n ⟨(ctrlCircuit bits).wireCount, (ctrlCircuit bits).inputs, (ctrlCircuit bits).outputs, levels⟩) {k0 k1 : List Row}
    (s0 : Shape n (divCeil bits 8) k0) (s1 : Shape n (divCeil bits 8) k1) :
    ∃ c0 c1, ctrlGmw E ⟨(ctrlCircuit bits).wireCount, (ctrlCircuit bits).inputs, (ctrlCircuit bits).outputs, levels⟩ n bits k0 k1 = .ok (c0, c1) ∧
      c0.length = n ∧ c1.length = n ∧ c0[0]? = some 0 ∧ c1[0]? = some 0 ∧
      ∀ i, 0 < i → i < n → (c0.getD i 0 ^^^ c1.getD i 0) =
        if ∀ t, t < 2 ^ Nat.log 2 bits → bitOf (xorRow (k0.getD (i - 1) []) (k1.getD (i - 1) [])) t = bitOf (xorRow (k0.getD i []) (k1.getD i [])) t
          then 1 else 0 :=
  C31_gmw hn hb (C31_circuit hb h) hE s0 s1

/-- The circuit of the group-by for the new active flags, with the levels the library makes. -/
theorem C34_flag_circuit {levels : List (List Gmw.Gate)} (h : Levelled groupFlagCircuit levels) :
    Cir2 1 1 (fun x y => !(x 0) && y 0) ⟨3, [[0], [1]], [[2]], levels⟩ := by
  refine ⟨⟨0, 1, rfl⟩, ⟨2, rfl⟩, h.computes (c := groupFlagCircuit) ⟨by decide, by decide⟩ _ fun x v hv i b hib j o hjo => ?_⟩
  obtain ⟨rfl, rfl⟩ : i = 0 ∧ b = [2] := by
    cases i with
    | zero => simp [groupFlagCircuit] at hib; exact ⟨rfl, hib.symm⟩
    | succ i => simp [groupFlagCircuit] at hib
  obtain rfl : o = 2 := List.mem_singleton.1 (List.mem_of_getElem? hjo)
  have a := hv 0 _ rfl 0 0 rfl
  have b := hv 1 _ rfl 0 1 rfl
  simp [groupFlagCircuit, Gmw.evalGates, Gmw.evalGate, Gmw.table, a, b]

/-! ## The hypotheses are met -/

/-- Keys of five bits in three rows: levels, valid OLEs and shares exist. -/
example : ∃ (levels : List (List Gmw.Gate)) (E : Env), Levelled (ctrlCircuit 5) levels ∧
    E.Ok 3 ⟨(ctrlCircuit 5).wireCount, (ctrlCircuit 5).inputs, (ctrlCircuit 5).outputs, levels⟩ ∧ Shape 3 (divCeil 5 8) [[3], [3], [19]] := by
  obtain ⟨s0, s1, h⟩ := Gmw.Wires.env_exists 3 ⟨(ctrlCircuit 5).wireCount, (ctrlCircuit 5).inputs, (ctrlCircuit 5).outputs,
    (ctrlCircuit 5).gates.map fun g => [g]⟩ (fun _ _ => 0) (fun _ _ => 0) (fun _ _ => false) (fun _ _ => true)
  exact ⟨_, _, C31_circuit_levels (by decide), h, by decide⟩

/-- The flag circuit has levels. -/
example : Levelled groupFlagCircuit [[⟨0, 1, 2, .naAnd⟩]] :=
  Gmw.Wires.levelled_single (c := groupFlagCircuit) (by decide) (fun g hg => by
    simp [groupFlagCircuit] at hg
    subst hg
    exact ⟨by decide, by decide, by decide, by simp [Gmw.kind]⟩) (by decide) (by decide)

end OmJoin
end SecJoin
