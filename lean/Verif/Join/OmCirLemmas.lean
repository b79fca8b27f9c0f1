import Verif.Join.OmCir
import Verif.Join.OmGmwLemmas
import Verif.Sort.RadixCir
/-! # Lemmas for the circuits of the join and the group-by -/
namespace SecJoin
namespace OmJoin
open Gmw
open Gmw.Wires (DefinedFrom Levelled Computes)

theorem gatesOf_append (a b : List Op) : gatesOf (a ++ b) = gatesOf a ++ gatesOf b := List.filterMap_append

theorem gatesOf_gates {ι : Type} (l : List ι) (f : ι → Gate) : gatesOf (l.map fun j => .gate (f j)) = l.map f := by
  induction l with
  | nil => rfl
  | cons x l ih => rw [List.map_cons, List.map_cons, ← ih]; rfl

/-- Without inversions the gates are all there is. -/
theorem evalOps_gatesOf {ops : List Op} (h : ∀ o ∈ ops, ∃ g, o = .gate g) (v : Nat → Bool) : evalOps ops v = evalGates (gatesOf ops) v := by
  induction ops generalizing v with
  | nil => rfl
  | cons o ops ih =>
    obtain ⟨g, rfl⟩ := h o List.mem_cons_self
    exact ih (fun p hp => h p (List.mem_cons_of_mem _ hp)) _

theorem ctrlLevels_gates (bits : Nat) : ∀ (left i : Nat) (temp : List Nat) (next : Nat), ∀ o ∈ ctrlLevels bits left i temp next, ∃ g, o = .gate g
  | 0, _, _, _, o, ho => by simp [ctrlLevels] at ho
  | left + 1, i, temp, next, o, ho => by
    rw [ctrlLevels] at ho
    rcases List.mem_append.1 ho with h | h
    · obtain ⟨j, -, rfl⟩ := List.mem_map.1 h
      exact ⟨_, rfl⟩
    · exact ctrlLevels_gates bits left _ _ _ o h

theorem ctrlOps_gates (bits : Nat) : ∀ o ∈ ctrlOps bits, ∃ g, o = .gate g := by
  intro o ho
  rw [ctrlOps] at ho
  rcases List.mem_append.1 ho with h | h
  · obtain ⟨j, -, rfl⟩ := List.mem_map.1 h
    exact ⟨_, rfl⟩
  · exact ctrlLevels_gates bits _ _ _ _ o h

theorem ctrlWires_le (bits : Nat) : ∀ left i next, next ≤ ctrlWires bits left i next
  | 0, _, _ => Nat.le_refl _
  | left + 1, i, next => by
    rw [ctrlWires]
    refine Nat.le_trans ?_ (ctrlWires_le bits left _ _)
    split
    · exact Nat.le_refl _
    · exact Nat.le_add_right _ _

/-- A layer of gates on defined wires is defined. -/
theorem defined_layer {ι : Type} {D : List Nat} (f : ι → Gate) : ∀ l : List ι, (∀ j ∈ l, (f j).in0 ∈ D ∧ (f j).in1 ∈ D) → DefinedFrom D (l.map f)
  | [], _ => trivial
  | j :: l, h => ⟨fun o ho => by
      rcases ho with rfl | ⟨-, rfl⟩
      · exact (h j List.mem_cons_self).1
      · exact (h j List.mem_cons_self).2,
    (defined_layer f l fun k hk => h k (List.mem_cons_of_mem _ hk)).mono fun x hx => List.mem_cons_of_mem _ hx⟩

theorem mem_getD {l : List Nat} {j : Nat} (h : j < l.length) : l.getD j 0 ∈ l := by
  rw [List.getD_eq_getElem?_getD, List.getElem?_eq_getElem h]; exact List.getElem_mem h

theorem ctrlLevels_wf {bits : Nat} : ∀ (left i : Nat) (temp : List Nat) (next : Nat) (D : List Nat), temp.length = bits / 2 ^ i →
    (∀ w ∈ temp, w < next ∧ w ∈ D) → 2 * bits < next →
    (∀ g ∈ gatesOf (ctrlLevels bits left i temp next), GateOk (ctrlWires bits left i next) g) ∧
      DefinedFrom D (gatesOf (ctrlLevels bits left i temp next)) ∧
      (i < Nat.log 2 bits → Nat.log 2 bits ≤ i + left → 2 * bits ∈ (gatesOf (ctrlLevels bits left i temp next)).map Gate.out)
  | 0, i, temp, next, D, _, _, _ => ⟨fun g hg => by simp [ctrlLevels, gatesOf] at hg, trivial, fun h1 h2 => by omega⟩
  | left + 1, i, temp, next, D, hl, ht, ho => by
    have hsz : bits / 2 / 2 ^ i = bits / 2 ^ i / 2 := by rw [Nat.div_div_eq_div_mul, Nat.div_div_eq_div_mul, Nat.mul_comm]
    have hsz' : bits / 2 / 2 ^ i = bits / 2 ^ (i + 1) := by rw [hsz, Nat.div_div_eq_div_mul, ← Nat.pow_succ]
    rw [ctrlLevels, ctrlWires]
    rw [gatesOf_append, gatesOf_gates]
    set size := bits / 2 / 2 ^ i with hs
    set temp2 := if size = 1 then [2 * bits] else List.range' next size with ht2
    set next' := if size = 1 then next else next + size with hn'
    have hle : next ≤ next' := by rw [hn']; split <;> omega
    have hlen2 : temp2.length = size := by
      rw [ht2]; split
      · rename_i h; rw [h]; rfl
      · rw [List.length_range']
    have hlt2 : ∀ w ∈ temp2, w < next' := by
      intro w hw
      rw [ht2] at hw
      rw [hn']
      split at hw
      · rename_i h
        rw [if_pos h]
        rw [List.mem_singleton] at hw
        omega
      · rename_i h
        rw [if_neg h]
        rw [List.mem_range'_1] at hw
        omega
    have hin : ∀ j, j < size → 2 * j + 1 < temp.length := fun j hj => by rw [hl]; omega
    have hfin := ctrlWires_le bits left (i + 1) next'
    set G := (List.range size).map fun j => (⟨temp.getD (2 * j) 0, temp.getD (2 * j + 1) 0, temp2.getD j 0, .and⟩ : Gate) with hG
    have hout : ∀ w ∈ temp2, w ∈ G.map Gate.out := by
      intro w hw
      obtain ⟨j, hj, rfl⟩ := List.mem_iff_getElem.1 hw
      rw [hlen2] at hj
      rw [hG, List.map_map, List.mem_map]
      refine ⟨j, List.mem_range.2 hj, ?_⟩
      show temp2.getD j 0 = _
      rw [List.getD_eq_getElem?_getD, List.getElem?_eq_getElem (by rw [hlen2]; exact hj)]
      rfl
    obtain ⟨r1, r2, r3⟩ := ctrlLevels_wf left (i + 1) temp2 next' (G.map Gate.out ++ D) (by rw [hlen2, hsz'])
      (fun w hw => ⟨hlt2 w hw, List.mem_append_left _ (hout w hw)⟩) (by omega)
    refine ⟨fun g hg => ?_, DefinedFrom.append (defined_layer _ _ fun j hj => ?_) r2, fun h1 h2 => ?_⟩
    · rcases List.mem_append.1 hg with h | h
      · obtain ⟨j, hj, rfl⟩ := List.mem_map.1 h
        have hj := hin j (List.mem_range.1 hj)
        have a := (ht _ (mem_getD (l := temp) (j := 2 * j) (by omega))).1
        have b := (ht _ (mem_getD (l := temp) hj)).1
        have c := hlt2 _ (mem_getD (l := temp2) (j := j) (by rw [hlen2]; omega))
        exact ⟨by dsimp only; omega, by dsimp only; omega, by dsimp only; omega, by simp [kind]⟩
      · exact r1 g h
    · have hj := hin j (List.mem_range.1 hj)
      exact ⟨(ht _ (mem_getD (l := temp) (j := 2 * j) (by omega))).2, (ht _ (mem_getD (l := temp) hj)).2⟩
    · rw [List.map_append]
      by_cases h : i + 1 < Nat.log 2 bits
      · exact List.mem_append_right _ (r3 h (by omega))
      · have he : i + 1 = Nat.log 2 bits := by omega
        have hb : bits ≠ 0 := by rintro rfl; simp at h1
        have h1' : size = 1 := by
          have l1 : 2 ^ (i + 1) ≤ bits := by rw [he]; exact Nat.pow_log_le_self 2 hb
          have l2 : bits < 2 ^ (i + 1) * 2 := by rw [← Nat.pow_succ, he]; exact Nat.lt_pow_succ_log_self (by omega) bits
          rw [hsz']
          exact Nat.div_eq_of_lt_le (by omega) (by omega)
        exact List.mem_append_left _ (hout _ (by rw [ht2, if_pos h1']; exact List.mem_singleton_self _))

theorem ctrl_wf {bits : Nat} (hb : 0 < bits) :
    (∀ g ∈ (ctrlCircuit bits).gates, GateOk (ctrlCircuit bits).wireCount g) ∧ DefinedFrom (ctrlCircuit bits).inputs.flatten (ctrlCircuit bits).gates ∧
      2 * bits ∈ (ctrlCircuit bits).gates.map Gate.out ∧ 2 * bits < (ctrlCircuit bits).wireCount := by
  have hmem : ∀ w, w ∈ (ctrlCircuit bits).inputs.flatten ↔ w < 2 * bits := by
    intro w
    simp only [ctrlCircuit, List.flatten_cons, List.flatten_nil, List.append_nil, List.mem_append, List.mem_range'_1]
    omega
  have hgo : (ctrlCircuit bits).gates = gatesOf (ctrlOps bits) := rfl
  rw [hgo, ctrlOps]
  rw [gatesOf_append, gatesOf_gates]
  set temp := if bits = 1 then [2 * bits] else List.range' (2 * bits + 1) bits with ht
  set next := if bits = 1 then 2 * bits + 1 else 3 * bits + 1 with hn
  have hw : (ctrlCircuit bits).wireCount = ctrlWires bits (Nat.clog 2 bits) 0 next := rfl
  have hno : 2 * bits < next := by rw [hn]; split <;> omega
  have hlen : temp.length = bits := by
    rw [ht]; split
    · rename_i h; rw [h]; rfl
    · rw [List.length_range']
  have hlt : ∀ w ∈ temp, w < next := by
    intro w hw
    rw [ht] at hw
    rw [hn]
    split at hw
    · rename_i h
      rw [if_pos h]
      rw [List.mem_singleton] at hw
      omega
    · rename_i h
      rw [if_neg h]
      rw [List.mem_range'_1] at hw
      omega
  have hle := ctrlWires_le bits (Nat.clog 2 bits) 0 next
  set G := (List.range bits).map fun i => (⟨i, bits + i, temp.getD i 0, .nxor⟩ : Gate) with hG
  have hout : ∀ w ∈ temp, w ∈ G.map Gate.out := by
    intro w hw
    obtain ⟨j, hj, rfl⟩ := List.mem_iff_getElem.1 hw
    rw [hlen] at hj
    rw [hG, List.map_map, List.mem_map]
    refine ⟨j, List.mem_range.2 hj, ?_⟩
    show temp.getD j 0 = _
    rw [List.getD_eq_getElem?_getD, List.getElem?_eq_getElem (by rw [hlen]; exact hj)]
    rfl
  obtain ⟨r1, r2, r3⟩ := ctrlLevels_wf (bits := bits) (Nat.clog 2 bits) 0 temp next (G.map Gate.out ++ (ctrlCircuit bits).inputs.flatten)
    (by rw [hlen, Nat.pow_zero, Nat.div_one]) (fun w hw => ⟨hlt w hw, List.mem_append_left _ (hout w hw)⟩) hno
  rw [hw]
  refine ⟨fun g hg => ?_, DefinedFrom.append (defined_layer _ _ fun j hj => ?_) r2, ?_, by omega⟩
  · rcases List.mem_append.1 hg with h | h
    · obtain ⟨j, hj, rfl⟩ := List.mem_map.1 h
      rw [List.mem_range] at hj
      have c := hlt _ (mem_getD (l := temp) (j := j) (by rw [hlen]; omega))
      exact ⟨by dsimp only; omega, by dsimp only; omega, by dsimp only; omega, by simp [kind]⟩
    · exact r1 g h
  · rw [List.mem_range] at hj
    exact ⟨(hmem _).2 (by dsimp only; omega), (hmem _).2 (by dsimp only; omega)⟩
  · rw [List.map_append]
    by_cases h : bits = 1
    · exact List.mem_append_left _ (hout _ (by rw [ht, if_pos h]; exact List.mem_singleton_self _))
    · exact List.mem_append_right _ (r3 (Nat.log_pos (by omega) (by omega)) (by rw [Nat.zero_add]; exact Nat.log_le_clog 2 bits))

theorem ctrl_bundles {bits : Nat} (hb : 0 < bits) : Gmw.Wires.Bundles (ctrlCircuit bits).wireCount (ctrlCircuit bits).inputs (ctrlCircuit bits).outputs := by
  have h := (ctrl_wf hb).2.2.2
  have e : ((ctrlCircuit bits).inputs ++ (ctrlCircuit bits).outputs).flatten = List.range' 0 (2 * bits + 1) := by
    show List.range' 0 bits ++ (List.range' bits bits ++ (List.range' (2 * bits) 1 ++ [])) = _
    rw [List.append_nil, show List.range' (2 * bits) 1 = List.range' (bits + bits) 1 by rw [Nat.two_mul], List.range'_append_1,
      show List.range' bits (bits + 1) = List.range' (0 + bits) (bits + 1) by rw [Nat.zero_add], List.range'_append_1]
    congr 1
    omega
  refine ⟨fun x hx => ?_, ?_⟩
  · rw [e, List.mem_range'_1] at hx
    omega
  · rw [e]; exact List.nodup_range'

theorem ctrl_value {bits : Nat} (hb : 0 < bits) (x : Nat → Nat → Bool) (v : Nat → Bool)
    (hv : ∀ (i : Nat) (b : List Nat), (ctrlCircuit bits).inputs[i]? = some b → ∀ j y, b[j]? = some y → v y = x i j) :
    evalGates (ctrlCircuit bits).gates v (2 * bits) = ctrlBit bits (x 0) (x 1) := by
  obtain ⟨h1, h2, h3, -⟩ := ctrl_wf hb
  rw [ctrlBit, evalOps_gatesOf (ctrlOps_gates bits)]
  refine Gmw.Wires.evalGates_defined _ _ _ _ h2 (fun g hg => (h1 g hg).type) (fun i hi => ?_) _ (.inr h3)
  simp only [ctrlCircuit, List.flatten_cons, List.flatten_nil, List.append_nil, List.mem_append, List.mem_range'_1] at hi
  by_cases h : i < bits
  · rw [if_pos h]
    exact hv 0 _ rfl i i (by rw [List.getElem?_range' h]; simp)
  · rw [if_neg h, if_pos (by omega)]
    exact hv 1 _ rfl (i - bits) i (by rw [List.getElem?_range' (by omega)]; simp; omega)

end OmJoin
end SecJoin
