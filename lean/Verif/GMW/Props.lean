import Verif.GMW.CircuitLemmas
import Mathlib.Tactic.Ring
/-!
# Properties of GMW: C23, C24, C25, C26
-/
namespace SecJoin
namespace Gmw

/-! ## C23: gates -/

/-- Every multiplication gate: with valid OLEs both parties can compute their message and their output, and the
outputs are shares of the gate's truth table on the shared inputs, in each of the `128 W` positions. -/
theorem C23_mult {W : Nat} {gt : GateType} (hk : kind gt = .mult) {x0 y0 a0 b0 c0 d0 x1 y1 a1 b1 c1 d1 : Word}
    (hx0 : x0.length = W) (hy0 : y0.length = W) (hx1 : x1.length = W) (hy1 : y1.length = W)
    (ha0 : a0.length = W) (ha1 : a1.length = W) (h01 : Ole a0 b0 c1 d1) (h10 : Ole a1 b1 c0 d0) :
    ∃ u0 v0 u1 v1 z0 z1, multSend 0 gt x0 y0 a0 c0 = .ok (u0 ++ v0) ∧ multSend 1 gt x1 y1 a1 c1 = .ok (u1 ++ v1) ∧
      u0.length = W ∧ v0.length = W ∧ u1.length = W ∧ v1.length = W ∧
      multRecv 0 gt x0 y0 b0 c0 d0 u1 v1 = .ok z0 ∧ multRecv 1 gt x1 y1 b1 c1 d1 u0 v0 = .ok z1 ∧
      z0.length = W ∧ z1.length = W ∧
      ∀ k < 128 * W, (wbit z0 k ^^ wbit z1 k) = table gt (wbit x0 k ^^ wbit x1 k) (wbit y0 k ^^ wbit y1 k) :=
  mult_ok hk hx0 hy0 hx1 hy1 ha0 ha1 h01 h10

/-- Every supported gate, linear or not, run by both parties on its own. -/
theorem C23_gate {W m : Nat} {g : Gate} {t0 t1 : Triples} {w0 w1 : List Word} (h0 : WordsOk W m w0)
    (h1 : WordsOk W m w1) (hg : GateOk m g) (ht : TriplesOk (W * ands [g]) t0 t1) :
    ∃ u0 u1 m0 m1 v0 v1, phase1 0 W [g] t0.a t0.c w0 = .ok (u0, m0) ∧ phase1 1 W [g] t1.a t1.c w1 = .ok (u1, m1) ∧
      phase2 0 W [g] t0.b t0.c t0.d m1 u0 = .ok v0 ∧ phase2 1 W [g] t1.b t1.c t1.d m0 u1 = .ok v1 ∧
      ∀ k < 128 * W, ∀ i < m, recon v0 v1 k i =
        if i = g.out then table g.type (recon w0 w1 k g.in0) (recon w0 w1 k g.in1) else recon w0 w1 k i := by
  obtain ⟨u0, u1, m0, m1, v0, v1, q1, q2, q3, q4, _, _, _, _, q9⟩ :=
    level_ok [g] t0 t1 w0 w1 h0 h1 (by simpa using hg) ⟨fun _ _ h => by simp at h, trivial⟩ ht
  exact ⟨u0, u1, m0, m1, v0, v1, q1, q2, q3, q4, q9⟩

/-- The supported types are exactly these ten; every other type makes the run stop with an error. -/
theorem C23_refused (gt : GateType) :
    (kind gt = .bad ↔ gt ∉ [.a, .naAnd, .nbAnd, .and, .nand, .nor, .nbOr, .or, .xor, .nxor]) ∧
    (kind gt = .bad → ∀ role W gs a c w i j o x y, rd w i = .ok x → rd w j = .ok y →
      phase1 role W (⟨i, j, o, gt⟩ :: gs) a c w = .error .throw) := by
  constructor
  · cases gt <;> decide
  · intro hk role W gs a c w i j o x y hx hy
    rw [phase1]
    simp only [hx, hy, ok_bind, hk]

/-- Two parties with random looking shares and OLEs: the AND and the NOR of 128 instances. -/
example : let x0 : Word := [0x35]; let y0 : Word := [0x6]; let x1 : Word := [0xf]; let y1 : Word := [0x50]
    let a0 : Word := [0xff0]; let c1 : Word := [0x3c]; let b0 : Word := [0x77]
    let d1 : Word := xorW (andW a0 c1) b0
    let a1 : Word := [0x123]; let c0 : Word := [0xfed]; let b1 : Word := [0x456]
    let d0 : Word := xorW (andW a1 c0) b1
    (do let s0 ← multSend 0 .and x0 y0 a0 c0
        let s1 ← multSend 1 .and x1 y1 a1 c1
        let z0 ← multRecv 0 .and x0 y0 b0 c0 d0 (s1.take 1) (s1.drop 1)
        let z1 ← multRecv 1 .and x1 y1 b1 c1 d1 (s0.take 1) (s0.drop 1)
        Except.ok (xorW z0 z1)) = (.ok [(0x35 ^^^ 0xf) &&& (0x6 ^^^ 0x50)] : Res Word) := by decide +kernel

/-! ## C24: the run -/

theorem runLevels_ok {W m : Nat} : ∀ (levels : List (List Gate)) (p0 p1 : Pool) (w0 w1 : List Word),
    WordsOk W m w0 → WordsOk W m w1 → (∀ l ∈ levels, ∀ g ∈ l, GateOk m g) → (∀ l ∈ levels, LevelOk l) →
    PoolOk p0 p1 → p0.total = 2 * (W * (levels.map ands).sum) →
    ∃ q0 q1 v0 v1, runLevels W levels p0 p1 w0 w1 = .ok (q0, q1, v0, v1) ∧ WordsOk W m v0 ∧ WordsOk W m v1 ∧
      PoolOk q0 q1 ∧ q0.total = 0 ∧
      ∀ k < 128 * W, ∀ i < m, recon v0 v1 k i = evalGates levels.flatten (recon w0 w1 k) i := by
  intro levels
  induction levels with
  | nil =>
    intro p0 p1 w0 w1 h0 h1 _ _ hp ht
    exact ⟨p0, p1, w0, w1, rfl, h0, h1, hp, by simpa using ht, fun _ _ _ _ => rfl⟩
  | cons l ls ih =>
    intro p0 p1 w0 w1 h0 h1 hg hl hp ht
    rw [List.map_cons, List.sum_cons, Nat.mul_add] at ht
    obtain ⟨t0, t1, q0, q1, f0, f1, tok, pok, tot⟩ := fetch_ok (W * ands l + p0.segs.length) (W * ands l) p0 p1 hp
      (by omega) (Nat.le_refl _)
    have hg0 : ∀ g ∈ l, GateOk m g := hg l (by simp)
    obtain ⟨u0, u1, m0, m1, v0, v1, r1, r2, r3, r4, r5, r6, _, _, r9⟩ :=
      level_ok l t0 t1 w0 w1 h0 h1 hg0 (hl l (by simp)) tok
    obtain ⟨s0, s1, x0, x1, e1, e2, e3, e4, e5, e6⟩ := ih q0 q1 v0 v1 r5 r6 (fun l h => hg l (by simp [h]))
      (fun l h => hl l (by simp [h])) pok (by omega)
    refine ⟨s0, s1, x0, x1, ?_, e2, e3, e4, e5, ?_⟩
    · rw [runLevels, runLevel]
      rw [← hp.segs.length]
      simp only [f0, f1, ok_bind, r1, r2, r3, r4, e1]
    · intro k hk i hi
      rw [e6 k hk i hi, List.flatten_cons]
      have : ∀ (xs ys : List Gate) v, evalGates (xs ++ ys) v = evalGates ys (evalGates xs v) := by
        intro xs
        induction xs with
        | nil => intro ys v; rfl
        | cons x xs ihx => intro ys v; simp only [List.cons_append, evalGates, ihx]
      rw [this]
      refine evalGates_congr ls.flatten _ _ ?_ (fun j hj => r9 k hk j hj) i hi
      intro g hgm
      obtain ⟨l', hl', hgl⟩ := List.mem_flatten.1 hgm
      exact hg l' (by simp [hl']) g hgl

/-- A run on any levelled circuit of supported gates, any number of instances `n`, any sharing of the wires and any
valid OLEs in segments of an even number of blocks: both parties finish, in every instance the wires are shares of
the plaintext evaluation of all gates in order, and exactly the OLEs requested by `init` are used up. -/
theorem C24_run {m n : Nat} {levels : List (List Gate)} {segs0 segs1 : List (List Block × List Block)}
    {w0 w1 : List Word} (h0 : WordsOk (width n) m w0) (h1 : WordsOk (width n) m w1) (hne : levels.flatten ≠ [])
    (hg : ∀ l ∈ levels, ∀ g ∈ l, GateOk m g) (hl : ∀ l ∈ levels, LevelOk l) (hs : SegsOk segs0 segs1)
    (ht : 128 * (segs0.map fun s => s.2.length).sum = numOles n levels) :
    ∃ q0 q1 v0 v1, run n levels segs0 segs1 w0 w1 = .ok (q0, q1, v0, v1) ∧
      (∀ k < n, ∀ i < m, recon v0 v1 k i = evalGates levels.flatten (recon w0 w1 k) i) ∧
      q0.total = 0 ∧ q1.total = 0 := by
  have tot : Pool.total ⟨[], [], segs0⟩ = 2 * (width n * (levels.map ands).sum) := by
    have e : numOles n levels = 128 * (2 * (width n * (levels.map ands).sum)) := by
      unfold numOles width; ring_nf
    simp only [Pool.total, List.length_nil, Nat.zero_add]
    omega
  obtain ⟨q0, q1, v0, v1, e1, e2, e3, e4, e5, e6⟩ := runLevels_ok (W := width n) levels ⟨[], [], segs0⟩ ⟨[], [], segs1⟩
    w0 w1 h0 h1 hg hl ⟨Ole.nil, rfl, hs⟩ tot
  refine ⟨q0, q1, v0, v1, ?_, ?_, e5, ?_⟩
  · unfold run
    have : (levels.flatten.length == 0) = false := by
      cases h : levels.flatten with
      | nil => exact absurd h hne
      | cons a l => simp
    rw [this, throwIf_false, ok_bind, e1]
  · intro k hk i hi
    refine e6 k ?_ i hi
    unfold width divCeil
    omega
  · -- the pools match
    have hlen : ∀ (s t : List (List Block × List Block)), SegsOk s t →
        (s.map fun s => s.2.length).sum = (t.map fun s => s.2.length).sum := by
      intro s
      induction s with
      | nil => intro t h; cases t with
        | nil => rfl
        | cons _ _ => exact absurd h (by simp [SegsOk])
      | cons a s ih => intro t h; cases t with
        | nil => exact absurd h (by simp [SegsOk])
        | cons b t =>
          obtain ⟨h1, _, h3⟩ := h
          simp only [List.map_cons, List.sum_cons, ih t h3]
          rw [h1.l1, h1.l3]
    have := hlen _ _ e4.segs
    have l1 := e4.ole.l1
    have l3 := e4.ole.l3
    unfold Pool.total at *
    omega

/-- The messages of one level: every message holds whole gates (a multiple of `2 W` blocks), none is empty, and
together they are the `2 W` blocks of every nonlinear gate. -/
theorem C24_messages {W : Nat} (hW : 0 < W) : ∀ (fuel k : Nat), k ≤ fuel →
    (chunks W fuel (W * 2 * k)).sum = W * 2 * k ∧
      ∀ c ∈ chunks W fuel (W * 2 * k), c ≠ 0 ∧ c % (W * 2) = 0 := by
  intro fuel
  induction fuel with
  | zero =>
    intro k hk
    have : k = 0 := by omega
    subst this
    simp [chunks]
  | succ fuel ih =>
    intro k hk
    rw [chunks]
    by_cases h0 : W * 2 * k = 0
    · rw [if_pos h0, h0]; simp
    · rw [if_neg h0]
      have hW2 : 0 < W * 2 := by omega
      have hk0 : 0 < k := by
        rcases Nat.eq_zero_or_pos k with h | h
        · rw [h] at h0; simp at h0
        · exact h
      -- the number of gates in the first message
      obtain ⟨q, hq⟩ : ∃ q, divCeil (Nat.min (2 ^ 14) (W * 2 * k)) (W * 2) = q := ⟨_, rfl⟩
      simp only [hq]
      have q1 : 0 < q := by
        rw [← hq]; unfold divCeil
        apply Nat.div_pos _ hW2
        have : 1 ≤ Nat.min (2 ^ 14) (W * 2 * k) := Nat.le_min.2 ⟨by norm_num, by omega⟩
        omega
      have q2 : q ≤ k := by
        rw [← hq]; unfold divCeil
        have : Nat.min (2 ^ 14) (W * 2 * k) ≤ W * 2 * k := Nat.min_le_right _ _
        have : (Nat.min (2 ^ 14) (W * 2 * k) + (W * 2 - 1)) / (W * 2) < k + 1 := by
          rw [Nat.div_lt_iff_lt_mul hW2, Nat.add_mul, Nat.one_mul, Nat.mul_comm k]
          omega
        rw [Nat.add_sub_assoc (by omega)]
        omega
      have e : W * 2 * k - q * (W * 2) = W * 2 * (k - q) := by
        rw [Nat.mul_sub, Nat.mul_comm q]
      rw [e]
      obtain ⟨i1, i2⟩ := ih (k - q) (by omega)
      constructor
      · rw [List.sum_cons, i1, Nat.mul_comm q, ← Nat.mul_add]
        congr 1
        omega
      · intro c hc
        rcases List.mem_cons.1 hc with rfl | hc
        · refine ⟨?_, Nat.mul_mod_left _ _⟩
          have := Nat.mul_pos q1 hW2
          omega
        · exact i2 c hc

/-- A circuit of two levels, `(x0 AND x1) NXOR x2` and then `NOR` with `x0`, on one instance. -/
example : let levels : List (List Gate) := [[⟨0, 1, 3, .and⟩], [⟨3, 2, 4, .nxor⟩, ⟨4, 0, 5, .nor⟩]]
    (∀ l ∈ levels, LevelOk l) ∧ numOles 100 levels = 2 * 2 * 128 ∧ levels.flatten ≠ [] ∧
    evalGates levels.flatten (fun i => [true, true, false].getD i false) 5 = false := by decide

/-! ## C25: termination -/

/-- Progress of the fetch loop: with segments of an even number of blocks and enough blocks in total it ends, for
both parties, within `need` rounds plus the number of segments, whatever the segments' sizes. -/
theorem C25_terminates_partial {need : Nat} {p0 p1 : Pool} (h : PoolOk p0 p1) (ht : 2 * need ≤ p0.total) :
    ∃ t0 t1 q0 q1, fetch 0 (need + p0.segs.length) need p0 = .ok (t0, q0) ∧
      fetch 1 (need + p0.segs.length) need p1 = .ok (t1, q1) ∧ q0.total + 2 * need = p0.total := by
  obtain ⟨t0, t1, q0, q1, f0, f1, _, _, tot⟩ := fetch_ok (need + p0.segs.length) need p0 p1 h ht (Nat.le_refl _)
  exact ⟨t0, t1, q0, q1, f0, f1, tot⟩

/-- The loop hangs on a segment of an odd number of blocks: it can use all but one of its blocks and never fetches
the next segment. This holds however many iterations are allowed. -/
theorem C25_odd_segment_hangs (role fuel need : Nat) (p : Pool) (hl : p.mult.length = p.add.length)
    (hodd : p.add.length % 2 = 1) (hn : p.add.length / 2 < need) :
    fetch role fuel need p = .error .diverge := by
  cases fuel with
  | zero => cases need with
    | zero => omega
    | succ n => rfl
  | succ fuel =>
    cases need with
    | zero => omega
    | succ n =>
      rw [fetch]
      have hne : p.add.length ≠ 0 := by omega
      have hr : refill p = .ok p := by unfold refill; rw [if_neg hne]
      rw [hr, ok_bind]
      have hm : Nat.min (n + 1) (p.add.length / 2) = p.add.length / 2 := Nat.min_eq_right (by omega)
      simp only [hm]
      by_cases h1 : p.add.length / 2 = 0
      · rw [if_pos ⟨h1, hne⟩]
      · rw [if_neg (fun h => h1 h.1)]
        rw [cut_ok (by omega), ok_bind]
        simp only
        rw [cut_ok (by rw [List.length_drop]; omega), ok_bind]
        simp only
        rw [cut_ok (by omega), ok_bind]
        simp only
        rw [cut_ok (by rw [List.length_drop]; omega), ok_bind]
        simp only [List.drop_drop]
        -- the next iteration sees a single block
        have : fetch role fuel (n + 1 - p.add.length / 2)
            ⟨p.mult.drop (p.add.length / 2 + p.add.length / 2), p.add.drop (p.add.length / 2 + p.add.length / 2), p.segs⟩ =
            .error .diverge := by
          obtain ⟨k, hk⟩ : ∃ k, n + 1 - p.add.length / 2 = k + 1 := ⟨n - p.add.length / 2, by omega⟩
          rw [hk]
          cases fuel with
          | zero => rfl
          | succ fuel =>
            rw [fetch]
            have hlen : (p.add.drop (p.add.length / 2 + p.add.length / 2)).length = 1 := by
              rw [List.length_drop]; omega
            have hr : refill ⟨p.mult.drop (p.add.length / 2 + p.add.length / 2),
                p.add.drop (p.add.length / 2 + p.add.length / 2), p.segs⟩ =
                .ok ⟨p.mult.drop (p.add.length / 2 + p.add.length / 2),
                  p.add.drop (p.add.length / 2 + p.add.length / 2), p.segs⟩ := by
              unfold refill; rw [if_neg (by simp only [hlen]; omega)]
            rw [hr, ok_bind]
            simp only [hlen]
            rw [if_pos ⟨by simp, by omega⟩]
        rw [this, err_bind]

/-- The whole run hangs although valid OLEs of the right total number are supplied, when they come in two segments
of three and one blocks. -/
theorem C25_run_hangs : let z : List Block := [0, 0, 0]
    let segs := [(z, z), ([0], [0])]
    let levels : List (List Gate) := [[⟨0, 1, 2, .and⟩, ⟨0, 1, 3, .or⟩]]
    128 * (segs.map fun s => s.2.length).sum = numOles 1 levels ∧
    run 1 levels segs segs (List.replicate 4 [0]) (List.replicate 4 [0]) = .error .diverge := by
  decide +kernel

example : PoolOk ⟨[], [], [([1, 2], [0, 2])]⟩ ⟨[], [], [([1, 3], [1, 0])]⟩ :=
  ⟨Ole.nil, rfl, ⟨rfl, rfl, rfl, by decide⟩, rfl, trivial⟩

/-! ## C26: the zero test -/

/-- The zero-test circuit outputs one exactly if all input bits are zero, for every width. -/
theorem C26_isZero {bits : Nat} (hb : 0 < bits) (x : Nat → Bool) :
    evalOps (isZeroOps bits) x 0 = true ↔ ∀ j < bits, x j = false := by
  unfold isZeroOps
  rw [evalOps_append]
  refine andTree_ok hb bits 1 _ (by omega) (by omega) ?_
  intro r hr
  rw [Nat.one_mul] at hr ⊢
  rw [evalOps_inv, if_pos hr]
  constructor
  · intro h j h1 h2 _
    have : j = r := by omega
    subst this
    simpa using h
  · intro h
    simpa using h r (Nat.le_refl _) (by omega) hr

example : evalOps (isZeroOps 5) (fun i => i == 4) 0 = false ∧ evalOps (isZeroOps 5) (fun i => i == 5) 0 = true := by
  decide

end Gmw
end SecJoin
