import Verif.Prf.SampleSimd
import Verif.Prf.SampleProps
/-!
# C57, C48: the vector program of the bulk sampler
-/
namespace SecJoin
namespace Mod3

/-- The two tables hold disjoint masks of five bits, and zeros for bytes that are no samples. -/
theorem tab_facts : ∀ b : Nat, b < 256 → (tabV.getD b 0 = 0 ∨ tabV.getD b 0 = 5) ∧ tabLsb.getD b 0 < 2 ^ tabV.getD b 0 ∧
    tabMsb.getD b 0 < 2 ^ tabV.getD b 0 ∧ tabLsb.getD b 0 &&& tabMsb.getD b 0 = 0 := by
  decide +kernel

theorem tab_lens : tabV.length = 256 ∧ tabLsb.length = 256 ∧ tabMsb.length = 256 := by decide +kernel

def toLane (s : LaneV) : Lane := ⟨s.lsb, s.msb, s.size.toNat⟩

theorem gatherLane_ok {t : List Nat} (ht : t.length = 256) (i : BitVec 32) :
    gatherLane t (i &&& 255) = .ok (.ofNat 32 (t.getD (i.extractLsb' 0 8).toNat 0)) := by
  have e : (i &&& 255).toNat = (i.extractLsb' 0 8).toNat := by
    rw [BitVec.toNat_and, BitVec.extractLsb'_toNat]
    show i.toNat &&& 2 ^ 8 - 1 = _
    rw [Nat.and_two_pow_sub_one_eq_mod]
    simp
  have hlt : (i.extractLsb' 0 8).toNat < 256 := (i.extractLsb' 0 8).isLt
  unfold gatherLane
  rw [if_neg, e, rd, List.getElem?_eq_getElem (by omega)]
  · simp only [ok_bind]
    rw [List.getD_eq_getElem?_getD, List.getElem?_eq_getElem (by omega)]
    rfl
  · rw [BitVec.toInt_eq_toNat_of_lt (by omega)]
    omega

/-- What one word does to one lane. -/
theorem lane_ok {o : LaneOps} (ho : o = sseOps ∨ o = portableOps) (s : LaneV) (hs : s.size.toNat < 2 ^ 30) {b : Nat} (hb : b < 256) :
    ∃ lsb msb size, o.sllv s.lsb (.ofNat 32 (tabV.getD b 0)) = .ok lsb ∧ (lsb &&& .ofNat 32 (tabLsb.getD b 0)) = 0 ∧
      o.sllv s.msb (.ofNat 32 (tabV.getD b 0)) = .ok msb ∧
      ((lsb ||| .ofNat 32 (tabLsb.getD b 0)) &&& .ofNat 32 (tabMsb.getD b 0)) = 0 ∧
      o.add s.size (.ofNat 32 (tabV.getD b 0)) = .ok size ∧
      toLane ⟨lsb ||| .ofNat 32 (tabLsb.getD b 0), msb ||| .ofNat 32 (tabMsb.getD b 0), size⟩ =
        lookupStep (toLane s) (.ofNat 8 b) ∧ size.toNat ≤ s.size.toNat + 5 := by
  obtain ⟨hv, hl, hm, hd⟩ := tab_facts b hb
  have e8 : (BitVec.ofNat 8 b).toNat = b := by rw [BitVec.toNat_ofNat]; omega
  have ev : (BitVec.ofNat 32 (tabV.getD b 0)).toNat = tabV.getD b 0 := by rw [BitVec.toNat_ofNat]; omega
  generalize hV : tabV.getD b 0 = v at *
  generalize hL : tabLsb.getD b 0 = l at *
  generalize hM : tabMsb.getD b 0 = m at *
  have hv5 : v ≤ 5 := by omega
  have hp : 2 ^ v ≤ 32 := by rcases hv with rfl | rfl <;> decide
  have hlow : ∀ (x : BitVec 32) (y : Nat), y < 2 ^ v → (x <<< v &&& .ofNat 32 y) = 0 := by
    intro x y hy
    apply BitVec.eq_of_getLsbD_eq
    intro i hi
    rw [BitVec.getLsbD_and, BitVec.getLsbD_shiftLeft, BitVec.getLsbD_ofNat]
    by_cases h : i < v
    · rw [decide_eq_true h]; simp
    · rw [Nat.testBit_lt_two_pow (Nat.lt_of_lt_of_le hy (Nat.pow_le_pow_right (by omega) (by omega)))]; simp
  refine ⟨s.lsb <<< v, s.msb <<< v, s.size + .ofNat 32 v, ?_, hlow _ _ hl, ?_, ?_, ?_, ?_, ?_⟩
  · rcases ho with rfl | rfl
    · show Except.ok _ = _; rw [ev, if_pos (by omega)]
    · show (if _ then _ else _) = _; rw [ev, if_pos (by omega)]
  · rcases ho with rfl | rfl
    · show Except.ok _ = _; rw [ev, if_pos (by omega)]
    · show (if _ then _ else _) = _; rw [ev, if_pos (by omega)]
  · have h1 := hlow s.lsb m hm
    have h2 : (BitVec.ofNat 32 l &&& .ofNat 32 m) = 0 := by
      apply BitVec.eq_of_toNat_eq
      rw [BitVec.toNat_and, BitVec.toNat_ofNat, BitVec.toNat_ofNat, Nat.mod_eq_of_lt (by omega), Nat.mod_eq_of_lt (by omega), hd]
      rfl
    apply BitVec.eq_of_getLsbD_eq
    intro i hi
    have g1 := congrArg (·.getLsbD i) h1
    have g2 := congrArg (·.getLsbD i) h2
    simp only [BitVec.getLsbD_and, BitVec.getLsbD_or, BitVec.getLsbD_zero] at g1 g2 ⊢
    revert g1 g2
    cases (s.lsb <<< v).getLsbD i <;> cases (BitVec.ofNat 32 l).getLsbD i <;> cases (BitVec.ofNat 32 m).getLsbD i <;> simp
  · rcases ho with rfl | rfl
    · rfl
    · show (if _ then _ else _) = _
      rw [if_pos]
      rw [BitVec.toInt_eq_toNat_of_lt (by omega), BitVec.toInt_eq_toNat_of_lt (by omega), ev]
      omega
  · unfold toLane lookupStep
    rw [e8, hV, hL, hM]
    simp only
    rw [BitVec.toNat_add, ev, Nat.mod_eq_of_lt (by omega)]
  · rw [BitVec.toNat_add, ev, Nat.mod_eq_of_lt (by omega)]
    omega

theorem sampleWord_ok {o : LaneOps} (ho : o = sseOps ∨ o = portableOps) : ∀ (ss : List LaneV) (j : Nat) (w base : BitVec 32),
    j + ss.length ≤ 4 → (∀ t, j + t < 4 → base.extractLsb' (8 * t) 8 = w.extractLsb' (8 * (j + t)) 8) →
    (∀ s ∈ ss, s.size.toNat < 2 ^ 30) →
    ∃ r, sampleWord o base ss = .ok r ∧ r.length = ss.length ∧
      (∀ t, t < ss.length → toLane (r.getD t ⟨0, 0, 0⟩) = lookupStep (toLane (ss.getD t ⟨0, 0, 0⟩)) (w.extractLsb' (8 * (j + t)) 8) ∧
        (r.getD t ⟨0, 0, 0⟩).size.toNat ≤ (ss.getD t ⟨0, 0, 0⟩).size.toNat + 5) := by
  intro ss
  induction ss with
  | nil => intro j w base _ _ _; exact ⟨[], rfl, rfl, by intro t ht; simp at ht⟩
  | cons s ss ih =>
    intro j w base hj hb hs
    rw [List.length_cons] at hj
    obtain ⟨tv, tl, tm⟩ := tab_lens
    have h0 := hb 0 (by omega)
    rw [Nat.mul_zero, Nat.add_zero] at h0
    obtain ⟨lsb, msb, size, e1, e2, e3, e4, e5, e6, e7⟩ := lane_ok ho s (hs s List.mem_cons_self) (base.extractLsb' 0 8).isLt
    obtain ⟨r, er, lr, hr⟩ := ih (j + 1) w (o.srli 8 base) (by omega) (fun t ht => by
      have := hb (t + 1) (by omega)
      rw [show j + 1 + t = j + (t + 1) by omega, ← this]
      apply BitVec.eq_of_getLsbD_eq
      intro i hi
      rw [BitVec.getLsbD_extractLsb', BitVec.getLsbD_extractLsb']
      rcases ho with rfl | rfl
      · show (_ && (base >>> 8).getLsbD _) = _
        rw [BitVec.getLsbD_ushiftRight, show 8 + (8 * t + i) = 8 * (t + 1) + i by omega]
      · show (_ && (base.sshiftRight 8).getLsbD _) = _
        rw [BitVec.getLsbD_sshiftRight, show 8 + (8 * t + i) = 8 * (t + 1) + i by omega, if_pos (by omega),
          decide_eq_false (show ¬ 32 ≤ 8 * t + i by omega)]
        rfl) (fun x hx => hs x (List.mem_cons_of_mem _ hx))
    refine ⟨⟨lsb ||| .ofNat 32 (tabLsb.getD (base.extractLsb' 0 8).toNat 0), msb ||| .ofNat 32 (tabMsb.getD (base.extractLsb' 0 8).toNat 0),
      size⟩ :: r, ?_, by simp [lr], ?_⟩
    · rw [sampleWord]
      simp only [gatherLane_ok tv, gatherLane_ok tl, gatherLane_ok tm, ok_bind, e1, e2, e3, e4, e5, er, bne_self_eq_false, throwIf_false]
    · intro t ht
      cases t with
      | zero =>
        refine ⟨?_, e7⟩
        show toLane ⟨_, _, _⟩ = lookupStep (toLane s) _
        rw [e6, Nat.mul_add, Nat.mul_zero, Nat.add_zero, ← h0]
        congr 1
        apply BitVec.eq_of_toNat_eq
        rw [BitVec.toNat_ofNat]
        have := (base.extractLsb' 0 8).isLt
        omega
      | succ t =>
        have := hr t (by simpa using ht)
        rw [show j + (t + 1) = j + 1 + t by omega]
        exact this

/-- C57, C48: with and without vector instructions the program of the bulk sampler goes through, no assertion fails, no table is
left, and lane `i` of vector `j` gets the samples of byte `j` of word `i` of each round. -/
theorem C57_sampler {o : LaneOps} (ho : o = sseOps ∨ o = portableOps) : ∀ (ws : List (BitVec 32)) (ss : List LaneV), ss.length ≤ 4 →
    (∀ s ∈ ss, s.size.toNat + 5 * ws.length < 2 ^ 30) →
    ∃ r, sampleWords o ws ss = .ok r ∧ r.length = ss.length ∧ ∀ j, j < ss.length →
      toLane (r.getD j ⟨0, 0, 0⟩) = ws.foldl (fun s w => lookupStep s (w.extractLsb' (8 * j) 8)) (toLane (ss.getD j ⟨0, 0, 0⟩)) := by
  intro ws
  induction ws with
  | nil => intro ss _ _; exact ⟨ss, rfl, rfl, fun _ _ => rfl⟩
  | cons w ws ih =>
    intro ss h4 hs
    obtain ⟨r, er, lr, hr⟩ := sampleWord_ok ho ss 0 w w (by omega) (fun t _ => by rw [Nat.zero_add]) (fun s h => by
      have := hs s h
      omega)
    obtain ⟨r2, e2, l2, h2⟩ := ih r (by omega) (fun s h => by
      obtain ⟨t, ht, rfl⟩ := List.getElem_of_mem h
      have h1 := (hr t (by omega)).2
      have h3 := hs _ (List.getElem_mem (show t < ss.length by omega))
      rw [List.getD_eq_getElem?_getD, List.getD_eq_getElem?_getD, List.getElem?_eq_getElem ht,
        List.getElem?_eq_getElem (show t < ss.length by omega)] at h1
      rw [List.length_cons] at h3
      simp only [Option.getD_some] at h1
      omega)
    refine ⟨r2, by rw [sampleWords, er, ok_bind, e2], by omega, fun j hj => ?_⟩
    rw [h2 j (by omega), (hr j hj).1, Nat.zero_add]
    rfl

/-- C57, C48: the eight rounds from zero are the lanes that C48 is about. -/
theorem C48_vectors {o : LaneOps} (ho : o = sseOps ∨ o = portableOps) (draw : Nat → Nat → BitVec 32) {i : Nat} (hi : i < 8) :
    ∃ r, sampleWords o ((List.range 8).map fun k => draw k i) zeroLanes = .ok r ∧ r.length = 4 ∧
      ∀ j, j < 4 → toLane (r.getD j ⟨0, 0, 0⟩) = lane8 draw (8 * j + i) := by
  obtain ⟨r, e, l, h⟩ := C57_sampler ho ((List.range 8).map fun k => draw k i) zeroLanes (by decide) (by
    rw [List.length_map, List.length_range]; decide)
  refine ⟨r, e, l, fun j hj => ?_⟩
  rw [h j hj, List.foldl_map]
  unfold lane8 laneByte
  rw [show (8 * j + i) % 8 = i by omega, show (8 * j + i) / 8 = j by omega]
  congr 1
  match j, hj with
  | 0, _ => rfl
  | 1, _ => rfl
  | 2, _ => rfl
  | 3, _ => rfl

/-- The right shift of the fallback alone is not that of the instruction. -/
theorem C57_srli_false : portableOps.srli 8 (BitVec.allOnes 32) ≠ sseOps.srli 8 (BitVec.allOnes 32) := by decide

/-- Two rounds: byte 0 is a sample, byte 250 is not. -/
example : sampleWords portableOps [0xFA05F201, 0xFF010203] zeroLanes = sampleWords sseOps [0xFA05F201, 0xFF010203] zeroLanes ∧
    (∀ s ∈ zeroLanes, s.size.toNat + 5 * [0xFA05F201, (0xFF010203 : BitVec 32)].length < 2 ^ 30) := by decide +kernel

end Mod3
end SecJoin
