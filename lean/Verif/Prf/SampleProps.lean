import Verif.Prf.SampleLemmas
import Verif.Prf.Mod3Props
/-!
# Sampling digits modulo three: C48
-/
namespace SecJoin
namespace Mod3

/-- C48: the tables. A byte below 243 stands for its five digits in base 3, any other byte for nothing; the combined table
and the three separate ones agree. -/
theorem C48_tables (b : BitVec 8) :
    tabV.getD b.toNat 0 = (if b.toNat < 243 then 5 else 0) ∧
    (∀ j, 2 * ((tabMsb.getD b.toNat 0).testBit j).toNat + ((tabLsb.getD b.toNat 0).testBit j).toNat =
      if b.toNat < 243 ∧ j < 5 then b.toNat / 3 ^ j % 3 else 0) ∧
    tab.getD b.toNat 0 = (if b.toNat < 243 then 2 ^ 16 else 0) + 2 ^ 8 * tabMsb.getD b.toNat 0 + tabLsb.getD b.toNat 0 := by
  obtain ⟨hv, hl, hm, hd, h1, h2, h3⟩ := tables b
  simp only [isSample, decide_eq_true_eq] at hv hd
  refine ⟨hv, fun j => ?_, ?_⟩
  · by_cases h5 : j < 5
    · rw [hd j h5]
      by_cases hb : b.toNat < 243
      · rw [if_pos hb, if_pos ⟨hb, h5⟩]; rfl
      · rw [if_neg hb, if_neg (fun hc => hb hc.1)]
    · have t1 : (tabMsb.getD b.toNat 0).testBit j = false :=
        Nat.testBit_lt_two_pow (Nat.lt_of_lt_of_le hm (show 2 ^ 5 ≤ 2 ^ j from Nat.pow_le_pow_right (by omega) (by omega)))
      have t2 : (tabLsb.getD b.toNat 0).testBit j = false :=
        Nat.testBit_lt_two_pow (Nat.lt_of_lt_of_le hl (show 2 ^ 5 ≤ 2 ^ j from Nat.pow_le_pow_right (by omega) (by omega)))
      rw [t1, t2, if_neg (fun hc => h5 hc.2)]
      rfl
  · rw [hv] at h1
    by_cases hb : b.toNat < 243
    · rw [if_pos hb] at h1 ⊢; omega
    · rw [if_neg hb] at h1 ⊢; omega

/-- The spec of `n` sampled blocks: there are `32` lanes for each group of eight blocks, each with its eight bytes of the
first stream and its part of the second one. Every word of the output holds the digits of the last samples of its lane. -/
def LookupSpec (draw : Nat → Nat → Nat → BitVec 32) (n g : Nat) (extra : List (BitVec 8)) (out : List (Block × Block)) : Prop :=
  out.length = n ∧ ∃ (used : List (List (BitVec 8))) (rest : List (BitVec 8)), used.length = 32 * divCeil n 8 ∧
    extra = used.flatten ++ rest ∧
    ∀ w, w < 4 * n →
      let bytes := roundBytes (draw (g + w / 32)) (w % 32) ++ used.getD w []
      let samples := bytes.filter fun b => decide (b.toNat < 243)
      7 ≤ samples.length ∧
      ∀ p, p < 32 → trit (out.getD (w / 4) (0, 0)).1 (out.getD (w / 4) (0, 0)).2 (32 * (w % 4) + p) =
        (samples.getD (samples.length - 1 - p / 5) 0).toNat / 3 ^ (p % 5) % 3

theorem lookupLoop_ok {draw : Nat → Nat → Nat → BitVec 32} : ∀ n g {extra : List (BitVec 8)} {out : List (Block × Block)},
    lookupLoop draw n g extra = some out → LookupSpec draw n g extra out := by
  intro n
  induction n using Nat.strongRecOn with
  | _ n ih =>
    intro g extra out h
    rw [lookupLoop] at h
    by_cases hn : n = 0
    · subst hn
      simp only [if_pos] at h
      obtain rfl := Option.some.inj h
      exact ⟨rfl, [], extra, by simp [divCeil], rfl, fun w hw => absurd hw (by omega)⟩
    · rw [if_neg hn] at h
      simp only [Option.bind_eq_bind, Option.bind_eq_some_iff, Option.pure_def] at h
      obtain ⟨⟨lanes, ex⟩, h1, r, h2, h3⟩ := h
      obtain rfl := Option.some.inj h3
      obtain ⟨u, a1, a2, a3, a4⟩ := finishAll_ok _ h1
      obtain ⟨b1, us, rest, b2, b3, b4⟩ := ih (n - 8) (by omega) (g + 1) h2
      rw [List.length_range] at a1 a2 a4
      have hout : ((List.range (min n 8)).map fun i => (blockOf (lanes.map (·.msb)) i, blockOf (lanes.map (·.lsb)) i)).length
        = min n 8 := by simp
      refine ⟨by rw [List.length_append, hout, b1]; omega, u ++ us, rest, ?_, ?_, fun w hw => ?_⟩
      · rw [List.length_append, a1, b2]
        unfold divCeil
        omega
      · rw [a3, show ex = us.flatten ++ rest from b3]; simp
      · by_cases hw32 : w < 32
        · have hl := a4 w hw32
          have e1 : w / 32 = 0 := by omega
          have e2 : w % 32 = w := by omega
          have e3 : (List.range 32).getD w 0 = w := by
            rw [List.getD_eq_getElem?_getD, List.getElem?_range hw32]; rfl
          rw [e3] at hl
          have e4 : (u ++ us).getD w [] = u.getD w [] := by
            rw [List.getD_eq_getElem?_getD, List.getD_eq_getElem?_getD, List.getElem?_append_left (by omega)]
          simp only [e1, e2, e4, Nat.add_zero]
          refine ⟨hl.enough, fun p hp => ?_⟩
          have e5 : (((List.range (min n 8)).map fun i => (blockOf (lanes.map (·.msb)) i, blockOf (lanes.map (·.lsb)) i)) ++ r).getD
              (w / 4) (0, 0) = (blockOf (lanes.map (·.msb)) (w / 4), blockOf (lanes.map (·.lsb)) (w / 4)) := by
            rw [List.getD_eq_getElem?_getD, List.getElem?_append_left (by rw [hout]; omega), List.getElem?_map,
              List.getElem?_range (by omega)]
            rfl
          rw [e5]
          have hd := hl.dig p hp
          have hlen := hl.enough
          rw [trit, blockOf_bit _ _ _ _ (by omega) hp, blockOf_bit _ _ _ _ (by omega) hp, show 4 * (w / 4) + w % 4 = w by omega]
          rw [trit32] at hd
          rw [hd, digit, List.getD_eq_getElem?_getD, List.getElem?_reverse (by omega), ← List.getD_eq_getElem?_getD]
          rfl
        · have hb := b4 (w - 32) (by omega)
          have e1 : g + 1 + (w - 32) / 32 = g + w / 32 := by omega
          have e2 : (w - 32) % 32 = w % 32 := by omega
          have e3 : (u ++ us).getD w [] = us.getD (w - 32) [] := by
            rw [List.getD_eq_getElem?_getD, List.getD_eq_getElem?_getD, List.getElem?_append_right (by omega), a1]
          have e4 : (w - 32) % 4 = w % 4 := by omega
          have e5 : (((List.range (min n 8)).map fun i => (blockOf (lanes.map (·.msb)) i, blockOf (lanes.map (·.lsb)) i)) ++ r).getD
              (w / 4) (0, 0) = r.getD ((w - 32) / 4) (0, 0) := by
            rw [List.getD_eq_getElem?_getD, List.getElem?_append_right (by rw [hout]; omega), hout, ← List.getD_eq_getElem?_getD]
            congr 1
            omega
          simp only [e1, e2, e4] at hb
          simp only [e3, e5]
          exact hb

/-- C48: the bulk sampler, whenever it returns. -/
theorem C48_lookup {draw : Nat → Nat → Nat → BitVec 32} {n : Nat} {extra : List (BitVec 8)} {out : List (Block × Block)}
    (h : sampleLookup draw n n extra = .ok (some out)) : LookupSpec draw n 0 extra out ∧ ∀ x ∈ out, Valid x.1 x.2 := by
  simp only [sampleLookup, throwIf, bne_self_eq_false] at h
  have hs := lookupLoop_ok n 0 (Except.ok.inj h)
  refine ⟨hs, fun x hx => ?_⟩
  obtain ⟨i, hi, rfl⟩ := List.mem_iff_getElem.1 hx
  intro p hp
  obtain ⟨hl, used, rest, -, -, hd⟩ := hs
  have := (hd (4 * i + p / 32) (by omega)).2 (p % 32) (by omega)
  rw [show (4 * i + p / 32) / 4 = i by omega, show 32 * ((4 * i + p / 32) % 4) + p % 32 = p by omega,
    List.getD_eq_getElem?_getD, List.getElem?_eq_getElem hi, Option.getD_some] at this
  rw [this]
  omega

theorem lookupLoop_some {draw : Nat → Nat → Nat → BitVec 32} : ∀ n g {extra : List (BitVec 8)},
    224 * divCeil n 8 ≤ (extra.filter isSample).length → ∃ out, lookupLoop draw n g extra = some out := by
  intro n
  induction n using Nat.strongRecOn with
  | _ n ih =>
    intro g extra h
    rw [lookupLoop]
    by_cases hn : n = 0
    · exact ⟨[], by rw [if_pos hn]⟩
    · rw [if_neg hn]
      have hd : divCeil n 8 = divCeil (n - 8) 8 + 1 := by unfold divCeil; omega
      obtain ⟨lanes, ex, h1, h2⟩ := finishAll_some (draw := draw g) (List.range 32) (bs := extra) (by
        rw [List.length_range]; omega)
      rw [List.length_range] at h2
      obtain ⟨out, h3⟩ := ih (n - 8) (by omega) (g + 1) (extra := ex) (by omega)
      simp only [h1, Option.bind_eq_bind, Option.bind_some, Option.pure_def, h3]
      exact ⟨_, rfl⟩

/-- C48: it returns once the second stream has seven samples for each lane, and it throws for spans of different sizes. -/
theorem C48_lookup_returns {draw : Nat → Nat → Nat → BitVec 32} {n : Nat} {extra : List (BitVec 8)}
    (h : 224 * divCeil n 8 ≤ (extra.filter fun b => decide (b.toNat < 243)).length) :
    ∃ out, sampleLookup draw n n extra = .ok (some out) := by
  obtain ⟨out, ho⟩ := lookupLoop_some (draw := draw) n 0 h
  refine ⟨out, ?_⟩
  simp only [sampleLookup, throwIf, bne_self_eq_false]
  exact congrArg Except.ok ho

theorem C48_lookup_throws {draw : Nat → Nat → Nat → BitVec 32} {n m : Nat} {extra : List (BitVec 8)} (h : n ≠ m) :
    sampleLookup draw n m extra = .error .throw := by
  have : (n != m) = true := by simpa using h
  simp only [sampleLookup, throwIf, this]
  rfl

/-- The hypothesis of C48: 448 bytes equal to 242 are enough for nine blocks. -/
example : 224 * divCeil 9 8 ≤ ((List.replicate 448 (242 : BitVec 8)).filter fun b => decide (b.toNat < 243)).length := by
  decide +kernel

/-! ## One digit from each seed -/

theorem clz_le_iff (v : BitVec 64) : clz v ≤ 63 ↔ v ≠ 0 := by
  have h : clz v < 64 ↔ ∃ x, x ∈ List.range 64 ∧ v.getLsbD (63 - x) = true := by
    have := List.findIdx_lt_length (xs := List.range 64) (p := fun i => v.getLsbD (63 - i))
    rw [List.length_range] at this
    simpa [clz] using this
  constructor
  · intro hc hv
    obtain ⟨x, -, hx⟩ := h.1 (by omega)
    rw [hv] at hx
    simp at hx
  · intro hv
    by_contra hc
    apply hv
    apply BitVec.eq_of_getLsbD_eq
    intro i hi
    by_contra hb
    apply hc
    have : clz v < 64 := h.2 ⟨63 - i, by simp; omega, by
      rw [show 63 - (63 - i) = i by omega]
      simpa using hb⟩
    omega

theorem clz_spec {v : BitVec 64} (h : clz v ≤ 63) : v.getLsbD (63 - clz v) = true ∧ ∀ i, 63 - clz v < i → v.getLsbD i = false := by
  have hl : clz v < (List.range 64).length := by rw [List.length_range]; omega
  constructor
  · have := List.findIdx_getElem (w := hl) (xs := List.range 64) (p := fun i => v.getLsbD (63 - i))
    have e : ∀ (k : Nat) (hk : k < (List.range 64).length), (List.range 64)[k]'hk = k := fun k hk => List.getElem_range hk
    exact (congrArg (fun t => v.getLsbD (63 - t)) (e _ hl)).symm.trans this
  · intro i hi
    by_cases h64 : i < 64
    · have := List.not_of_lt_findIdx (xs := List.range 64) (p := fun i => v.getLsbD (63 - i)) (i := 63 - i) (by
        show 63 - i < clz v
        omega)
      rw [List.getElem_range, show 63 - (63 - i) = i by omega] at this
      simpa using this
    · exact BitVec.getLsbD_of_ge _ _ (by omega)

/-- The pair of bits `i` of a seed as a number. -/
def pairOf (x : Block) (i : Nat) : Nat := 2 * (x.getLsbD (64 + i)).toNat + (x.getLsbD i).toNat

/-- What is sampled from a seed: the topmost pair of bits which is not 3. -/
def IsTop (x : Block) (t : Nat) : Prop := t < 3 ∧ ∃ i, i < 64 ∧ pairOf x i = t ∧ ∀ k, i < k → k < 64 → pairOf x k = 3

theorem sample1_ok {x : Block} (h : x ≠ BitVec.allOnes 128) : ∃ m l, sample1 x = .ok (m, l) ∧ IsTop x (2 * m.toNat + l.toNat) := by
  have hv : ∀ i, i < 64 → (~~~((x.extractLsb' 0 64) &&& (x.extractLsb' 64 64)) : BitVec 64).getLsbD i =
      !(x.getLsbD i && x.getLsbD (64 + i)) := by
    intro i hi
    simp [hi]
  have hne : (~~~((x.extractLsb' 0 64) &&& (x.extractLsb' 64 64)) : BitVec 64) ≠ 0 := by
    intro hc
    apply h
    apply BitVec.eq_of_getLsbD_eq
    intro i hi
    have hb : ∀ i, i < 64 → (x.getLsbD i && x.getLsbD (64 + i)) = true := by
      intro i hi
      have := hv i hi
      rw [hc] at this
      simpa using this.symm
    by_cases h64 : i < 64
    · have := hb i h64
      simp only [Bool.and_eq_true] at this
      rw [this.1, BitVec.getLsbD_allOnes, decide_eq_true hi]
    · have := hb (i - 64) (by omega)
      simp only [Bool.and_eq_true, show 64 + (i - 64) = i by omega] at this
      rw [this.2, BitVec.getLsbD_allOnes, decide_eq_true hi]
  have hc := (clz_le_iff _).2 hne
  obtain ⟨s1, s2⟩ := clz_spec hc
  have hi : 63 - clz (~~~((x.extractLsb' 0 64) &&& (x.extractLsb' 64 64)) : BitVec 64) < 64 := by omega
  refine ⟨x.getLsbD (64 + (63 - clz (~~~((x.extractLsb' 0 64) &&& (x.extractLsb' 64 64)) : BitVec 64))),
    x.getLsbD (63 - clz (~~~((x.extractLsb' 0 64) &&& (x.extractLsb' 64 64)) : BitVec 64)), ?_, ?_⟩
  · simp only [sample1, if_pos hc, BitVec.getLsbD_extractLsb', hi, decide_true, Bool.true_and, Nat.zero_add]
  · rw [hv _ hi] at s1
    refine ⟨?_, _, hi, rfl, fun k hk hk64 => ?_⟩
    · revert s1
      cases x.getLsbD (64 + (63 - clz (~~~((x.extractLsb' 0 64) &&& (x.extractLsb' 64 64)) : BitVec 64))) <;>
        cases x.getLsbD (63 - clz (~~~((x.extractLsb' 0 64) &&& (x.extractLsb' 64 64)) : BitVec 64)) <;> simp
    · have := s2 k hk
      rw [hv k hk64] at this
      simp only [Bool.not_eq_false', Bool.and_eq_true] at this
      simp [pairOf, this.1, this.2]

theorem sample1_ones : sample1 (BitVec.allOnes 128) = .error .ub := by
  decide +kernel

theorem shl_bit (a : Bool) (j k : Nat) (hj : j < 8) :
    (((if a then 1 else 0) : BitVec 8) <<< j).getLsbD k = (decide (k = j) && a) := by
  cases a
  · simp
  · simp only [if_true, BitVec.getLsbD_shiftLeft, BitVec.getLsbD_one, Bool.and_true]
    by_cases h : k = j
    · subst h; simp [hj]
    · by_cases h2 : k < 8 <;> by_cases h3 : k < j <;> simp [h, h2, h3] <;> omega

theorem sample8_ok : ∀ (xs : List Block) (j : Nat) (m l : BitVec 8), j + xs.length ≤ 8 → (∀ x ∈ xs, x ≠ BitVec.allOnes 128) →
    (∀ k, j ≤ k → m.getLsbD k = false ∧ l.getLsbD k = false) →
    ∃ m' l', sample8 xs j m l = .ok (m', l') ∧
      (∀ k, k < j ∨ j + xs.length ≤ k → m'.getLsbD k = m.getLsbD k ∧ l'.getLsbD k = l.getLsbD k) ∧
      ∀ k, k < xs.length → IsTop (xs.getD k 0) (2 * (m'.getLsbD (j + k)).toNat + (l'.getLsbD (j + k)).toNat) := by
  intro xs
  induction xs with
  | nil =>
    intro j m l _ _ _
    exact ⟨m, l, rfl, fun _ _ => ⟨rfl, rfl⟩, fun k hk => absurd hk (by simp)⟩
  | cons x xs ih =>
    intro j m l hj hx hz
    simp only [List.length_cons] at hj
    obtain ⟨a, b, h1, h2⟩ := sample1_ok (hx x (by simp))
    obtain ⟨m', l', h3, h4, h5⟩ := ih (j + 1) (m ||| ((if a then 1 else 0) : BitVec 8) <<< j) (l ||| ((if b then 1 else 0) : BitVec 8) <<< j)
      (by omega) (fun y hy => hx y (by simp [hy])) (by
        intro k hk
        rw [BitVec.getLsbD_or, BitVec.getLsbD_or, shl_bit _ _ _ (by omega), shl_bit _ _ _ (by omega), (hz k (by omega)).1,
          (hz k (by omega)).2]
        simp [show k ≠ j by omega])
    refine ⟨m', l', ?_, ?_, ?_⟩
    · simp only [sample8, h1, ok_bind]
      exact h3
    · intro k hk
      simp only [List.length_cons] at hk
      obtain ⟨g1, g2⟩ := h4 k (by omega)
      rw [g1, g2, BitVec.getLsbD_or, BitVec.getLsbD_or, shl_bit _ _ _ (by omega), shl_bit _ _ _ (by omega)]
      simp [show k ≠ j by omega]
    · intro k hk
      cases k with
      | zero =>
        obtain ⟨g1, g2⟩ := h4 j (by omega)
        rw [Nat.add_zero, g1, g2, BitVec.getLsbD_or, BitVec.getLsbD_or, shl_bit _ _ _ (by omega), shl_bit _ _ _ (by omega),
          (hz j (by omega)).1, (hz j (by omega)).2]
        simpa using h2
      | succ k =>
        have := h5 k (by simpa using hk)
        rw [show j + (k + 1) = j + 1 + k by omega]
        simpa using this

theorem sampleLoop_ok : ∀ (k : Nat) (seed : List Block), seed.length = 8 * k → (∀ x ∈ seed, x ≠ BitVec.allOnes 128) →
    ∃ out, sampleLoop seed k = .ok out ∧ out.length = k ∧ ∀ t, t < seed.length →
      IsTop (seed.getD t 0) (2 * ((out.getD (t / 8) (0, 0)).1.getLsbD (t % 8)).toNat + ((out.getD (t / 8) (0, 0)).2.getLsbD (t % 8)).toNat) := by
  intro k
  induction k with
  | zero => intro seed hs _; exact ⟨[], rfl, rfl, fun t ht => absurd ht (by omega)⟩
  | succ k ih =>
    intro seed hs hx
    have ht8 : (seed.take 8).length = 8 := by rw [List.length_take]; omega
    obtain ⟨m, l, h1, -, h2⟩ := sample8_ok (seed.take 8) 0 0 0 (by omega) (fun x h => hx x (List.mem_of_mem_take h)) (by simp)
    obtain ⟨out, h3, h4, h5⟩ := ih (seed.drop 8) (by rw [List.length_drop]; omega) (fun x h => hx x (List.mem_of_mem_drop h))
    refine ⟨(m, l) :: out, ?_, by simp [h4], fun t ht => ?_⟩
    · simp only [sampleLoop, h1, ok_bind, h3]
    · by_cases h8 : t < 8
      · have := h2 t (by omega)
        rw [List.getD_eq_getElem?_getD, List.getElem?_take_of_lt h8, ← List.getD_eq_getElem?_getD, Nat.zero_add] at this
        rw [show t / 8 = 0 by omega, show t % 8 = t by omega]
        exact this
      · have := h5 (t - 8) (by rw [List.length_drop]; omega)
        rw [List.getD_eq_getElem?_getD, List.getElem?_drop, ← List.getD_eq_getElem?_getD, show 8 + (t - 8) = t by omega,
          show (t - 8) % 8 = t % 8 by omega] at this
        rw [show t / 8 = (t - 8) / 8 + 1 by omega]
        exact this

/-- C48, in part: the sampler with a seed for each digit takes the topmost pair of bits which is not 3. Missing: a seed of
all ones, see `C48_false`. -/
theorem C48_seeds_partial {seed : List Block} {n : Nat} (hn : seed.length = n * 128) (hx : ∀ x ∈ seed, x ≠ BitVec.allOnes 128) :
    ∃ out, sampleMod3 seed n n = .ok out ∧ out.length = 16 * n ∧ ∀ t, t < seed.length →
      IsTop (seed.getD t 0) (2 * ((out.getD (t / 8) (0, 0)).1.getLsbD (t % 8)).toNat +
        ((out.getD (t / 8) (0, 0)).2.getLsbD (t % 8)).toNat) := by
  obtain ⟨out, h1, h2, h3⟩ := sampleLoop_ok (seed.length / 8) seed (by omega) hx
  refine ⟨out, ?_, by omega, h3⟩
  have e : (n * 128 != seed.length) = false := by simp [hn]
  simp only [sampleMod3, e, throwIf, bne_self_eq_false]
  exact h1

/-- C48: wrong sizes are refused. -/
theorem C48_seeds_throws {seed : List Block} {n m : Nat} (h : seed.length ≠ n * 128 ∨ n ≠ m) :
    sampleMod3 seed n m = .error .throw := by
  by_cases h1 : n * 128 = seed.length
  · have h2 : n ≠ m := by
      rcases h with h | h
      · exact absurd h1.symm h
      · exact h
    have e1 : (n * 128 != seed.length) = false := by simpa using h1
    have e2 : (n != m) = true := by simpa using h2
    simp only [sampleMod3, e1, e2, throwIf]
    rfl
  · have e1 : (n * 128 != seed.length) = true := by simpa using h1
    simp only [sampleMod3, e1, throwIf]
    rfl

theorem sample8_err : ∀ (xs : List Block) (j : Nat) (m l : BitVec 8), BitVec.allOnes 128 ∈ xs → sample8 xs j m l = .error .ub := by
  intro xs
  induction xs with
  | nil => intro _ _ _ h; simp at h
  | cons x xs ih =>
    intro j m l h
    by_cases hx : x = BitVec.allOnes 128
    · simp only [sample8, hx, sample1_ones, err_bind]
    · obtain ⟨a, b, h1, -⟩ := sample1_ok hx
      simp only [sample8, h1, ok_bind]
      exact ih _ _ _ ((List.mem_cons.1 h).resolve_left (Ne.symm hx))

/-- C48 fails as stated: a seed of all ones, which the comments of the code take to give the digit 0, is a shift by -1. -/
theorem C48_false {seed : List Block} {n : Nat} (hn : seed.length = n * 128) (hx : BitVec.allOnes 128 ∈ seed) :
    sampleMod3 seed n n = .error .ub := by
  have e : (n * 128 != seed.length) = false := by simp [hn]
  simp only [sampleMod3, e, throwIf, bne_self_eq_false]
  have : ∀ (k : Nat) (s : List Block), s.length = 8 * k → BitVec.allOnes 128 ∈ s → sampleLoop s k = .error .ub := by
    intro k
    induction k with
    | zero => intro s hs h; rw [List.length_eq_zero_iff.1 (show s.length = 0 by omega)] at h; simp at h
    | succ k ih =>
      intro s hs h
      by_cases hc : BitVec.allOnes 128 ∈ s.take 8
      · simp only [sampleLoop, sample8_err _ _ _ _ hc, err_bind]
      · have h8 : (s.take 8).length = 8 := by rw [List.length_take]; omega
        obtain ⟨m, l, h1, -, -⟩ := sample8_ok (s.take 8) 0 0 0 (by omega) (fun x hx hxe => hc (hxe ▸ hx)) (by simp)
        simp only [sampleLoop, h1, ok_bind]
        rw [ih (s.drop 8) (by rw [List.length_drop]; omega) (by
          rw [← List.take_append_drop 8 s] at h
          exact (List.mem_append.1 h).resolve_left hc)]
        rfl
  exact this _ _ (by omega) hx

/-- The hypotheses of C48 on the seeds: one block of digits from 128 seeds, and one seed of all ones. -/
example : (List.replicate 128 (7 : Block)).length = 1 * 128 ∧ ∀ x ∈ List.replicate 128 (7 : Block), x ≠ BitVec.allOnes 128 := by
  refine ⟨by simp, fun x hx => ?_⟩
  rw [List.eq_of_mem_replicate hx]
  decide
example : BitVec.allOnes 128 ∈ BitVec.allOnes 128 :: List.replicate 127 (7 : Block) := by simp

/-- C48: no byte of the stream is used by two lanes or in two rounds. -/
theorem C48_bytes {x y r s : Nat} (hx : x < 32) (hy : y < 32) (h : ∀ draw, laneByte draw x r = laneByte draw y s) : x = y ∧ r = s := by
  have key := h fun r' w => if r' = r ∧ w = x % 8 then BitVec.ofNat 32 (2 ^ (8 * (x / 8))) else 0
  have e1 : x / 8 < 4 := by omega
  have e2 : y / 8 < 4 := by omega
  have l : laneByte (fun r' w => if r' = r ∧ w = x % 8 then BitVec.ofNat 32 (2 ^ (8 * (x / 8))) else 0) x r = 1 := by
    unfold laneByte
    simp only [and_self, if_true]
    generalize x / 8 = a at e1
    revert a
    decide
  rw [l] at key
  unfold laneByte at key
  simp only at key
  by_cases hc : s = r ∧ y % 8 = x % 8
  · rw [if_pos hc] at key
    have : x / 8 = y / 8 := by
      clear l h hc
      generalize x / 8 = a at *
      generalize y / 8 = b at *
      clear hx hy
      revert a b
      decide
    exact ⟨by omega, hc.1.symm⟩
  · rw [if_neg hc] at key
    exfalso
    generalize y / 8 = b at e2 key
    clear l h hc e1 hx hy
    revert b
    decide

end Mod3
end SecJoin
