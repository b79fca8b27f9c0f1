import Verif.AggTree.ShuffleLemmas
/-!
# C30: the perfect shuffle and unshuffle
-/
namespace SecJoin

/-- The shuffled word alternates the bits of the halves: bit `2j` is bit `j` of the first and bit
`2j+1` bit `j` of the second. -/
theorem C30_word_shuffle (x0 x1 : BitVec 16) (j : Nat) (hj : j < 16) :
    (cShuffleWord x0 x1).getLsbD (2 * j) = x0.getLsbD j ∧
      (cShuffleWord x0 x1).getLsbD (2 * j + 1) = x1.getLsbD j := by
  rw [cShuffleWord_bit _ _ (by omega), cShuffleWord_bit _ _ (by omega)]
  unfold pick
  rw [if_pos (by omega), if_neg (by omega), show 2 * j / 2 = j by omega, show (2 * j + 1) / 2 = j by omega]
  exact ⟨rfl, rfl⟩

/-- The unshuffled halves are the even and the odd bits. -/
theorem C30_word_unshuffle (x : BitVec 32) (j : Nat) (hj : j < 16) :
    (cUnshuffleWord x).1.getLsbD j = x.getLsbD (2 * j) ∧
      (cUnshuffleWord x).2.getLsbD j = x.getLsbD (2 * j + 1) := cUnshuffleWord_bit x hj

theorem C30_word_inverse (x0 x1 : BitVec 16) : cUnshuffleWord (cShuffleWord x0 x1) = (x0, x1) := by
  apply Prod.ext <;> apply BitVec.eq_of_getLsbD_eq <;> intro j hj
  · rw [(C30_word_unshuffle _ j hj).1, (C30_word_shuffle _ _ j hj).1]
  · rw [(C30_word_unshuffle _ j hj).2, (C30_word_shuffle _ _ j hj).2]

theorem C30_word_inverse' (x : BitVec 32) : cShuffleWord (cUnshuffleWord x).1 (cUnshuffleWord x).2 = x := by
  apply BitVec.eq_of_getLsbD_eq
  intro i hi
  rcases Nat.mod_two_eq_zero_or_one i with h | h
  · have := (C30_word_shuffle (cUnshuffleWord x).1 (cUnshuffleWord x).2 (i / 2) (by omega)).1
    rw [show 2 * (i / 2) = i by omega] at this
    rw [this, (C30_word_unshuffle _ _ (by omega)).1, show 2 * (i / 2) = i by omega]
  · have := (C30_word_shuffle (cUnshuffleWord x).1 (cUnshuffleWord x).2 (i / 2) (by omega)).2
    rw [show 2 * (i / 2) + 1 = i by omega] at this
    rw [this, (C30_word_unshuffle _ _ (by omega)).2, show 2 * (i / 2) + 1 = i by omega]

/-- Spans of any length, in both builds: the output has the requested size and its bits alternate
between the inputs. -/
theorem C30_shuffle (sse : Bool) {a b : Row} {n : Nat} (hab : a.length = b.length) (hn : a.length = (n + 1) / 2) :
    ∃ r, perfectShuffle sse a b n = .ok r ∧ r.length = n ∧
      ∀ i < 8 * n, bitOf r i = bitOf (if i % 2 = 0 then a else b) (i / 2) := by
  unfold perfectShuffle
  have : ∃ r, (if sse then sseShuffle a b n else cShuffle a b n) = .ok r ∧ r.length = n ∧ IsMix r a b 0 := by
    cases sse
    · exact cShuffle_ok hab hn
    · exact sseShuffle_ok hab hn
  obtain ⟨r, h1, h2, h3⟩ := this
  refine ⟨r, h1, h2, fun i hi => ?_⟩
  rw [h3 i (by omega), Nat.zero_add]
  unfold pick
  split <;> rfl

/-- The unshuffle of a span of any length, in both builds: both outputs have half the size, rounded up,
and are the even and the odd bits of the input, which is continued by zeros. -/
theorem C30_unshuffle (sse : Bool) {x : Row} {o : Nat} (ho : o = (x.length + 1) / 2) :
    ∃ r0 r1, perfectUnshuffle sse x o o = .ok (r0, r1) ∧ r0.length = o ∧ r1.length = o ∧
      ∀ i < 8 * o, bitOf r0 i = bitOf x (2 * i) ∧ bitOf r1 i = bitOf x (2 * i + 1) := by
  unfold perfectUnshuffle
  have : ∃ w : Row × Row, (if sse then sseUnshuffle x o o else cUnshuffle x o o) = .ok w ∧ w.1.length = o ∧
      w.2.length = o ∧ IsHalf w.1 x 0 0 ∧ IsHalf w.2 x 1 0 := by
    cases sse
    · exact cUnshuffle_ok ho
    · exact sseUnshuffle_ok ho
  obtain ⟨w, h1, h2, h3, h4, h5⟩ := this
  refine ⟨w.1, w.2, h1, h2, h3, fun i hi => ?_⟩
  rw [h4 i (by omega), h5 i (by omega)]
  constructor <;> congr 1 <;> omega

/-- The two builds agree. -/
theorem C30_builds_agree {a b : Row} {n : Nat} (hab : a.length = b.length) (hn : a.length = (n + 1) / 2) :
    perfectShuffle true a b n = perfectShuffle false a b n := by
  obtain ⟨r, h1, h2, h3⟩ := C30_shuffle true hab hn
  obtain ⟨r', g1, g2, g3⟩ := C30_shuffle false hab hn
  have : r = r' := row_ext (by rw [h2, g2]) fun i hi => by rw [h3 i (by omega), g3 i (by omega)]
  rw [h1, g1, this]

/-- Shuffling the unshuffled halves gives the span back. -/
theorem C30_roundtrip (s s' : Bool) (x : Row) :
    ∃ r0 r1, perfectUnshuffle s x ((x.length + 1) / 2) ((x.length + 1) / 2) = .ok (r0, r1) ∧
      perfectShuffle s' r0 r1 x.length = .ok x := by
  obtain ⟨r0, r1, h1, h2, h3, h4⟩ := C30_unshuffle s (x := x) rfl
  obtain ⟨r, g1, g2, g3⟩ := C30_shuffle s' (a := r0) (b := r1) (n := x.length) (by rw [h2, h3]) h2
  refine ⟨r0, r1, h1, ?_⟩
  rw [g1, row_ext g2 fun i hi => ?_]
  rw [g3 i (by omega)]
  by_cases h : i % 2 = 0
  · rw [if_pos h, (h4 _ (by omega)).1, show 2 * (i / 2) = i by omega]
  · rw [if_neg h, (h4 _ (by omega)).2, show 2 * (i / 2) + 1 = i by omega]

/-- Unshuffling the shuffled span gives the inputs back if the output has room for all their bits. -/
theorem C30_roundtrip' (s s' : Bool) {a b : Row} (hab : a.length = b.length) :
    ∃ r, perfectShuffle s a b (2 * a.length) = .ok r ∧ perfectUnshuffle s' r a.length a.length = .ok (a, b) := by
  obtain ⟨r, h1, h2, h3⟩ := C30_shuffle s (n := 2 * a.length) hab (by omega)
  obtain ⟨r0, r1, g1, g2, g3, g4⟩ := C30_unshuffle s' (x := r) (o := a.length) (by omega)
  refine ⟨r, h1, ?_⟩
  have e0 : r0 = a := row_ext g2 fun i hi => ?_
  have e1 : r1 = b := row_ext (by rw [g3, hab]) fun i hi => ?_
  · rw [g1, e0, e1]
  · rw [(g4 i (by omega)).2, h3 _ (by omega), if_neg (by omega), show (2 * i + 1) / 2 = i by omega]
  · rw [(g4 i (by omega)).1, h3 _ (by omega), if_pos (by omega), show 2 * i / 2 = i by omega]

/-- If the output has one byte less, only the top four bits of each input are lost. -/
theorem C30_roundtrip_odd (s s' : Bool) {a b : Row} (hab : a.length = b.length) (ha : 0 < a.length) :
    ∃ r r0 r1, perfectShuffle s a b (2 * a.length - 1) = .ok r ∧
      perfectUnshuffle s' r a.length a.length = .ok (r0, r1) ∧
      ∀ i < 8 * a.length, bitOf r0 i = (decide (i < 8 * a.length - 4) && bitOf a i) ∧
        bitOf r1 i = (decide (i < 8 * a.length - 4) && bitOf b i) := by
  obtain ⟨r, h1, h2, h3⟩ := C30_shuffle s (n := 2 * a.length - 1) hab (by omega)
  obtain ⟨r0, r1, g1, g2, g3, g4⟩ := C30_unshuffle s' (x := r) (o := a.length) (by omega)
  refine ⟨r, r0, r1, h1, g1, fun i hi => ?_⟩
  rw [(g4 i hi).1, (g4 i hi).2]
  by_cases h : i < 8 * a.length - 4
  · rw [h3 _ (by omega), h3 _ (by omega), if_pos (by omega), if_neg (by omega), show 2 * i / 2 = i by omega,
      show (2 * i + 1) / 2 = i by omega]
    simp [h]
  · rw [bitOf_ge (r := r) (k := 2 * i) (by omega), bitOf_ge (r := r) (k := 2 * i + 1) (by omega)]
    simp [h]

/-- Without SSE, sizes that do not fit are refused. -/
theorem C30_refused {a b : Row} {n : Nat} (h : a.length ≠ b.length ∨ a.length ≠ (n + 1) / 2) :
    perfectShuffle false a b n = .error .throw := by
  unfold perfectShuffle cShuffle
  simp only [Bool.false_eq_true, if_false]
  by_cases h1 : a.length = b.length
  · rcases h with h | h
    · exact absurd h1 h
    · rw [h1, bne_self_eq_false, throwIf_false, ok_bind, ← h1, throwIf_ne h]; rfl
  · rw [throwIf_ne h1]; rfl

theorem C30_unshuffle_refused {x : Row} {o0 o1 : Nat} (h : o0 ≠ o1 ∨ o0 ≠ (x.length + 1) / 2) :
    perfectUnshuffle false x o0 o1 = .error .throw := by
  unfold perfectUnshuffle cUnshuffle
  simp only [Bool.false_eq_true, if_false]
  by_cases h1 : o0 = o1
  · rcases h with h | h
    · exact absurd h1 h
    · rw [h1, bne_self_eq_false, throwIf_false, ok_bind, ← h1, throwIf_ne h]; rfl
  · rw [throwIf_ne h1]; rfl

/-! ## The hypotheses are met -/

example : cShuffleWord 0xFFFF 0 = 0x55555555 := by decide
example : perfectShuffle false [0xFF, 0x0F] [0, 0xF0] 3 = .ok [0x55, 0x55, 0x55] := by decide
example : ∃ r, perfectShuffle true [0xFF, 0x0F] [0, 0xF0] 3 = .ok r ∧ r.length = 3 :=
  let ⟨r, h, g, _⟩ := C30_shuffle true (a := [0xFF, 0x0F]) (b := [0, 0xF0]) (n := 3) rfl rfl
  ⟨r, h, g⟩

end SecJoin
