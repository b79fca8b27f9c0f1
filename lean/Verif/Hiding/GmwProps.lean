import Verif.Hiding.GmwLemmas
import Mathlib.Logic.ExistsUnique
/-!
# C83: a circuit evaluation hides the other party's inputs
-/
namespace SecJoin
namespace Gmw

/-- `level_ok` for either order of the parties. -/
theorem level_both {r W m : Nat} (hr : r < 2) {gs : List Gate} {t0 t1 : Triples} {w0 w1 : List Word}
    (h0 : WordsOk W m w0) (h1 : WordsOk W m w1) (hg : ∀ g ∈ gs, GateOk m g) (hl : LevelOk gs) (ht : TriplesOk (W * ands gs) t0 t1) :
    ∃ u0 u1 m0 m1 v0 v1, phase1 r W gs t0.a t0.c w0 = .ok (u0, m0) ∧ phase1 (1 - r) W gs t1.a t1.c w1 = .ok (u1, m1) ∧
      phase2 r W gs t0.b t0.c t0.d m1 u0 = .ok v0 ∧ phase2 (1 - r) W gs t1.b t1.c t1.d m0 u1 = .ok v1 ∧
      WordsOk W m v0 ∧ WordsOk W m v1 ∧ m0.length = 2 * W * ands gs ∧ m1.length = 2 * W * ands gs := by
  match r, hr with
  | 0, _ =>
    obtain ⟨u0, u1, m0, m1, v0, v1, a, b, c, d, e, f, g, h, _⟩ := level_ok gs t0 t1 w0 w1 h0 h1 hg hl ht
    exact ⟨u0, u1, m0, m1, v0, v1, a, b, c, d, e, f, g, h⟩
  | 1, _ =>
    obtain ⟨u1, u0, m1, m0, v1, v0, a, b, c, d, e, f, g, h, _⟩ := level_ok gs t1 t0 w1 w0 h1 h0 hg hl ht.symm
    exact ⟨u0, u1, m0, m1, v0, v1, b, a, d, c, f, e, h, g⟩

/-- Everything about one level with correlations that fit. -/
theorem viewLevel_ok {r W m : Nat} (hr : r < 2) {gs : List Gate} {p0 p1 : Pool} {w0 w1 : List Word} (h0 : WordsOk W m w0)
    (h1 : WordsOk W m w1) (hg : ∀ g ∈ gs, GateOk m g) (hl : LevelOk gs) (hp : PoolOk p0 p1) (ht : 2 * (W * ands gs) ≤ p0.total) :
    ∃ t0 t1 s u0 u1, fetch r (W * ands gs + p0.segs.length) (W * ands gs) p0 = .ok (t0, s.pool0) ∧
      fetch (1 - r) (W * ands gs + p0.segs.length) (W * ands gs) p1 = .ok (t1, s.pool1) ∧
      TriplesOk (W * ands gs) t0 t1 ∧ PoolOk s.pool0 s.pool1 ∧ s.pool0.total + 2 * (W * ands gs) = p0.total ∧
      phase1 r W gs t0.a t0.c w0 = .ok (u0, s.sent) ∧ phase1 (1 - r) W gs t1.a t1.c w1 = .ok (u1, s.rcvd) ∧
      phase2 r W gs t0.b t0.c t0.d s.rcvd u0 = .ok s.wires0 ∧ phase2 (1 - r) W gs t1.b t1.c t1.d s.sent u1 = .ok s.wires1 ∧
      WordsOk W m s.wires0 ∧ WordsOk W m s.wires1 ∧ s.rcvd.length = 2 * W * ands gs ∧
      viewLevel r W gs p0 p1 w0 w1 = .ok s := by
  obtain ⟨t0, t1, q0, q1, f0, f1, hT, hq, tot⟩ := fetch_both hr hp ht (Nat.le_refl _)
  obtain ⟨u0, u1, m0, m1, v0, v1, a, b, c, d, e, f, g, h⟩ := level_both hr h0 h1 hg hl hT
  refine ⟨t0, t1, ⟨m0, m1, q0, q1, v0, v1⟩, u0, u1, f0, f1, hT, hq, tot, a, b, c, d, e, f, h, ?_⟩
  unfold viewLevel
  simp only [f0, ← hp.segs.length, f1, a, b, c, d, ok_bind]

/-- A party's triples are determined by its masks and the other party's triples. -/
theorem triples_fit {k : Nat} {t0 t1 t2 : Triples} (h1 : TriplesOk k t0 t1) (h2 : TriplesOk k t0 t2) (ha : t1.a = t2.a)
    (hc : t1.c = t2.c) : t1 = t2 := by
  have e1 := ole_fit h1.h01
  have e2 := ole_fit h2.h01
  have e3 := ole_fit h1.h10.symm
  have e4 := ole_fit h2.h10.symm
  obtain ⟨a1, b1, c1, d1⟩ := t1
  obtain ⟨a2, b2, c2, d2⟩ := t2
  simp only at ha hc e1 e2 e3 e4
  subst ha hc
  rw [e1, e2, e3, e4]

theorem segs_empty : ∀ {s t u : List (List Block × List Block)}, SegsOk s t → SegsOk s u →
    (s.map fun x => x.2.length).sum = 0 → t = u
  | [], [], [], _, _, _ => rfl
  | a :: s, (b1, b2) :: t, (c1, c2) :: u, h1, h2, hz => by
    simp only [List.map_cons, List.sum_cons] at hz
    have z : a.2.length = 0 := by omega
    have e1 := h1.1.l1
    have e2 := h1.1.l2
    have e3 := h1.1.l3
    have e4 := h2.1.l2
    have e5 := h2.1.l3
    simp only at e2 e3 e4 e5
    have y1 : b1 = [] := List.eq_nil_of_length_eq_zero (by omega)
    have y2 : b2 = [] := List.eq_nil_of_length_eq_zero (by omega)
    have y3 : c1 = [] := List.eq_nil_of_length_eq_zero (by omega)
    have y4 : c2 = [] := List.eq_nil_of_length_eq_zero (by omega)
    rw [y1, y2, y3, y4, segs_empty h1.2.2 h2.2.2 (by omega)]
  | [], _ :: _, _, h, _, _ => h.elim
  | [], [], _ :: _, _, h, _ => h.elim
  | _ :: _, [], _, h, _, _ => h.elim
  | _ :: _, _ :: _, [], _, h, _ => h.elim

theorem pool_empty {p q q' : Pool} (h1 : PoolOk p q) (h2 : PoolOk p q') (hz : p.total = 0) : q = q' := by
  unfold Pool.total at hz
  obtain ⟨m, a, s⟩ := q
  obtain ⟨m', a', s'⟩ := q'
  have e1 := h1.ole.l1
  have e2 := h1.ole.l2
  have e3 := h1.ole.l3
  have e4 := h2.ole.l2
  have e5 := h2.ole.l3
  simp only at e2 e3 e4 e5
  have e6 : s = s' := segs_empty h1.segs h2.segs (by omega)
  rw [List.eq_nil_of_length_eq_zero (l := m) (by omega), List.eq_nil_of_length_eq_zero (l := a) (by omega),
    List.eq_nil_of_length_eq_zero (l := m') (by omega), List.eq_nil_of_length_eq_zero (l := a') (by omega), e6]

/-- The levels of a run: for other wires of the second party exactly one pool of correlations gives the same transcript. -/
theorem viewLevels_fit {r W m : Nat} (hr : r < 2) : ∀ (ls : List (List Gate)) (p0 p1 : Pool) (w0 w1 w2 : List Word),
    WordsOk W m w0 → WordsOk W m w1 → WordsOk W m w2 → (∀ l ∈ ls, ∀ g ∈ l, GateOk m g) → (∀ l ∈ ls, LevelOk l) → PoolOk p0 p1 →
    p0.total = 2 * (W * (ls.map ands).sum) →
    ∃ ms v0 v1, viewLevels r W ls p0 p1 w0 w1 = .ok (ms, v0, v1) ∧
      ∃ p2, (PoolOk p0 p2 ∧ ∃ v2, viewLevels r W ls p0 p2 w0 w2 = .ok (ms, v0, v2)) ∧
        ∀ p, (PoolOk p0 p ∧ ∃ v2, viewLevels r W ls p0 p w0 w2 = .ok (ms, v0, v2)) → p = p2 := by
  intro ls
  induction ls with
  | nil =>
    intro p0 p1 w0 w1 w2 h0 h1 h2 _ _ hp ht
    refine ⟨[], w0, w1, rfl, p1, ⟨hp, w2, rfl⟩, ?_⟩
    rintro p ⟨hp', _⟩
    exact pool_empty hp' hp (by simpa using ht)
  | cons gs ls ih =>
    intro p0 p1 w0 w1 w2 h0 h1 h2 hg hl hp ht
    have hgs := hg gs (by simp)
    have hls := hl gs (by simp)
    have hsum : W * ((gs :: ls).map ands).sum = W * ands gs + W * (ls.map ands).sum := by
      rw [List.map_cons, List.sum_cons, Nat.mul_add]
    rw [hsum] at ht
    have hle : 2 * (W * ands gs) ≤ p0.total := by omega
    obtain ⟨t0, t1, s, u0, u1, f0, f1, hT, hq, tot, a0, a1, b0, b1, k0, k1, lr, hv⟩ := viewLevel_ok hr h0 h1 hgs hls hp hle
    -- the triples of the second party with the wires `w2`
    obtain ⟨A, C, ⟨lA, lC, u2, hA⟩, uA⟩ := phase1_fit (role := 1 - r) gs w2 h2 hgs s.rcvd lr
    have hT2 : TriplesOk (W * ands gs) t0 ⟨A, xorW (andW t0.c A) t0.d, C, xorW (andW t0.a C) t0.b⟩ :=
      ⟨ole_mk hT.h01.l1 (by rw [lC, hT.l0]), (ole_mk (by rw [hT.h10.l3, hT.h10.l2]) (by rw [hT.h10.l2, lA, hT.l1])).symm, hT.l0, lA⟩
    obtain ⟨t2, et2⟩ : ∃ t2 : Triples, t2 = ⟨A, xorW (andW t0.c A) t0.d, C, xorW (andW t0.a C) t0.b⟩ := ⟨_, rfl⟩
    rw [← et2] at hT2
    have eA : t2.a = A := by rw [et2]
    have eC : t2.c = C := by rw [et2]
    -- the second level step
    obtain ⟨x0, x2, n0, n2, y0, y2, c0, c2, d0, d2, j0, j2, _, _⟩ := level_both hr h0 h2 hgs hls hT2
    rw [a0] at c0
    simp only [Except.ok.injEq, Prod.mk.injEq] at c0
    obtain ⟨rfl, rfl⟩ := c0
    rw [eA, eC, hA] at c2
    simp only [Except.ok.injEq, Prod.mk.injEq] at c2
    obtain ⟨rfl, rfl⟩ := c2
    rw [b0] at d0
    simp only [Except.ok.injEq] at d0
    subst d0
    obtain ⟨ms, v0, v1, hrun, q2, ⟨hq2, v2, hrun2⟩, uq⟩ := ih s.pool0 s.pool1 s.wires0 s.wires1 y2 k0 k1 j2
      (fun l h => hg l (by simp [h])) (fun l h => hl l (by simp [h])) hq (by omega)
    obtain ⟨p2, ⟨hp2, f2⟩, up⟩ := fetch_fit hr hp f0 hT2 hq2
    refine ⟨(s.sent, s.rcvd) :: ms, v0, v1, ?_, p2, ⟨hp2, v2, ?_⟩, ?_⟩
    · simp only [viewLevels, hv, hrun, ok_bind]
    · have : viewLevel r W gs p0 p2 w0 w2 = .ok ⟨s.sent, s.rcvd, s.pool0, q2, s.wires0, y2⟩ := by
        unfold viewLevel
        simp only [f0, ← hp2.segs.length, f2, a0, eA, eC, hA, b0, ok_bind]
        rw [eC] at d2
        simp only [d2, ok_bind]
      simp only [viewLevels, this, hrun2, ok_bind]
    · rintro p ⟨hp', v', hrun'⟩
      obtain ⟨t0', t', s', u0', u', g0, g', hT', hq', tot', i0, i', e0, e', _, kk, _, hv'⟩ :=
        viewLevel_ok hr h0 h2 hgs hls hp' hle
      simp only [viewLevels, hv', ok_bind] at hrun'
      rw [bind_ok_iff] at hrun'
      obtain ⟨⟨ms', z0, z1⟩, hr1, hr2⟩ := hrun'
      simp only [Except.ok.injEq, Prod.mk.injEq, List.cons.injEq] at hr2
      obtain ⟨⟨⟨es, er⟩, rfl⟩, rfl, rfl⟩ := hr2
      rw [f0] at g0
      simp only [Except.ok.injEq, Prod.mk.injEq] at g0
      obtain ⟨rfl, ep⟩ := g0
      -- the triples are the ones found
      have hm := uA t'.a t'.c ⟨by rw [hT'.l1], by rw [hT'.h01.l2, hT'.l0], u', by rw [i', er]⟩
      have et : t' = t2 := triples_fit hT' hT2 (by rw [hm.1, eA]) (by rw [hm.2, eC])
      subst et
      -- the wires after the level
      rw [a0] at i0
      simp only [Except.ok.injEq, Prod.mk.injEq] at i0
      obtain ⟨rfl, _⟩ := i0
      rw [er, b0] at e0
      simp only [Except.ok.injEq] at e0
      rw [eA, eC, hA] at i'
      simp only [Except.ok.injEq, Prod.mk.injEq] at i'
      obtain ⟨rfl, _⟩ := i'
      rw [es, d2] at e'
      simp only [Except.ok.injEq] at e'
      rw [← ep, ← e0, ← e'] at hr1
      have : s'.pool1 = q2 := uq _ ⟨by rw [ep]; exact hq', _, hr1⟩
      rw [this] at g'
      exact up p ⟨hp', g'⟩

/-- C83, circuits: evaluated with correlations in the requested number, both parties finish; what a party (of role `r`) sees is the blocks
that are sent in both directions, level by level, and its own wires at the end. For all other wires of the second party of the same
shape exactly one set of its correlations fits those of the first party and gives the same view. So all inputs of the second party are
equally likely for the first one, whatever it knows and sees. -/
theorem C83_gmw {r m n : Nat} (hr : r < 2) {levels : List (List Gate)} {segs0 segs1 : List (List Block × List Block)}
    {w0 w1 : List Word} (h0 : WordsOk (width n) m w0) (h1 : WordsOk (width n) m w1) (hne : levels.flatten ≠ [])
    (hg : ∀ l ∈ levels, ∀ g ∈ l, GateOk m g) (hl : ∀ l ∈ levels, LevelOk l) (hs : SegsOk segs0 segs1)
    (ht : 128 * (segs0.map fun s => s.2.length).sum = numOles n levels) :
    ∃ ms v0 v1, view r n levels segs0 segs1 w0 w1 = .ok (ms, v0, v1) ∧
      ∀ w2, WordsOk (width n) m w2 →
        ∃! segs2, SegsOk segs0 segs2 ∧ ∃ v2, view r n levels segs0 segs2 w0 w2 = .ok (ms, v0, v2) := by
  have tot : Pool.total ⟨[], [], segs0⟩ = 2 * (width n * (levels.map ands).sum) := by
    have e : numOles n levels = 128 * (2 * (width n * (levels.map ands).sum)) := by
      unfold numOles width
      rw [Nat.mul_assoc, ← Nat.mul_assoc (levels.map ands).sum, Nat.mul_comm _ 128, Nat.mul_comm (levels.map ands).sum]
      exact Nat.mul_left_comm ..
    simp only [Pool.total, List.length_nil, Nat.zero_add]
    omega
  have hne' : (levels.flatten.length == 0) = false := by
    cases h : levels.flatten with
    | nil => exact absurd h hne
    | cons a l => rfl
  have hP : ∀ s, SegsOk segs0 s ↔ PoolOk ⟨[], [], segs0⟩ ⟨[], [], s⟩ := fun s => ⟨fun h => ⟨Ole.nil, rfl, h⟩, fun h => h.segs⟩
  have fit := fun w2 h2 => viewLevels_fit (W := width n) hr levels ⟨[], [], segs0⟩ ⟨[], [], segs1⟩ w0 w1 w2 h0 h1 h2 hg hl
    ((hP _).1 hs) tot
  unfold view
  simp only [hne', throwIf_false, ok_bind]
  obtain ⟨ms, v0, v1, e, _⟩ := fit w1 h1
  refine ⟨ms, v0, v1, e, fun w2 h2 => ?_⟩
  obtain ⟨ms', v0', v1', e', p2, ⟨hp2, hv2⟩, u⟩ := fit w2 h2
  rw [e] at e'
  simp only [Except.ok.injEq, Prod.mk.injEq] at e'
  obtain ⟨rfl, rfl, rfl⟩ := e'
  have pe : p2 = ⟨[], [], p2.segs⟩ := by
    obtain ⟨a, b, c⟩ := p2
    have e2 := hp2.ole.l2
    have e3 := hp2.ole.l3
    simp only at e2 e3
    rw [List.eq_nil_of_length_eq_zero (l := a) e2, List.eq_nil_of_length_eq_zero (l := b) e3]
  rw [pe] at hp2 hv2
  refine ⟨p2.segs, ⟨hp2.segs, hv2⟩, ?_⟩
  rintro s ⟨hs', hv'⟩
  have := u ⟨[], [], s⟩ ⟨(hP _).1 hs', hv'⟩
  rw [← this]

theorem viewLevel_run (W : Nat) (gs : List Gate) (p0 p1 : Pool) (w0 w1 : List Word) :
    (viewLevel 0 W gs p0 p1 w0 w1).map (fun s => (s.pool0, s.pool1, s.wires0, s.wires1)) = runLevel W gs p0 p1 w0 w1 := by
  unfold viewLevel runLevel
  simp only [Nat.sub_zero]
  cases fetch 0 (W * ands gs + p0.segs.length) (W * ands gs) p0 with
  | error e => rfl
  | ok x =>
    simp only [ok_bind]
    cases fetch 1 (W * ands gs + p1.segs.length) (W * ands gs) p1 with
    | error e => rfl
    | ok y =>
      simp only [ok_bind]
      cases phase1 0 W gs x.1.a x.1.c w0 with
      | error e => rfl
      | ok u =>
        simp only [ok_bind]
        cases phase1 1 W gs y.1.a y.1.c w1 with
        | error e => rfl
        | ok v =>
          simp only [ok_bind]
          cases phase2 0 W gs x.1.b x.1.c x.1.d v.2 u.1 with
          | error e => rfl
          | ok z =>
            simp only [ok_bind]
            cases phase2 1 W gs y.1.b y.1.c y.1.d u.2 v.1 with
            | error e => rfl
            | ok z' => rfl

theorem viewLevels_run (W : Nat) : ∀ (ls : List (List Gate)) (p0 p1 : Pool) (w0 w1 : List Word),
    (viewLevels 0 W ls p0 p1 w0 w1).map (·.2) = (runLevels W ls p0 p1 w0 w1).map fun x => (x.2.2.1, x.2.2.2) := by
  intro ls
  induction ls with
  | nil => intro p0 p1 w0 w1; rfl
  | cons gs ls ih =>
    intro p0 p1 w0 w1
    simp only [viewLevels, runLevels]
    rw [← viewLevel_run]
    cases viewLevel 0 W gs p0 p1 w0 w1 with
    | error e => rfl
    | ok s =>
      simp only [Except.map, ok_bind]
      have := ih s.pool0 s.pool1 s.wires0 s.wires1
      cases h : viewLevels 0 W ls s.pool0 s.pool1 s.wires0 s.wires1 with
      | error e => rw [h] at this; simpa [Except.map] using this
      | ok x => rw [h] at this; simpa [Except.map] using this

theorem viewLevel_mirror {W : Nat} {gs : List Gate} {p0 p1 : Pool} {w0 w1 : List Word} {s : Step} :
    viewLevel 1 W gs p1 p0 w1 w0 = .ok s ↔
      viewLevel 0 W gs p0 p1 w0 w1 = .ok ⟨s.rcvd, s.sent, s.pool1, s.pool0, s.wires1, s.wires0⟩ := by
  unfold viewLevel
  simp only [bind_ok_iff, Except.ok.injEq, Prod.exists]
  constructor
  · rintro ⟨t1, q1, f1, t0, q0, f0, u1, m1, a1, u0, m0, a0, v1, b1, v0, b0, rfl⟩
    exact ⟨t0, q0, f0, t1, q1, f1, u0, m0, a0, u1, m1, a1, v0, b0, v1, b1, rfl⟩
  · rintro ⟨t0, q0, f0, t1, q1, f1, u0, m0, a0, u1, m1, a1, v0, b0, v1, b1, e⟩
    refine ⟨t1, q1, f1, t0, q0, f0, u1, m1, a1, u0, m0, a0, v1, b1, v0, b0, ?_⟩
    obtain ⟨s1, s2, s3, s4, s5, s6⟩ := s
    simp only [Step.mk.injEq] at e ⊢
    obtain ⟨rfl, rfl, rfl, rfl, rfl, rfl⟩ := e
    exact ⟨rfl, rfl, rfl, rfl, rfl, rfl⟩

theorem viewLevels_mirror {W : Nat} : ∀ (ls : List (List Gate)) (p0 p1 : Pool) (w0 w1 v0 v1 : List Word)
    (ms : List (List Block × List Block)),
    viewLevels 1 W ls p1 p0 w1 w0 = .ok (ms, v1, v0) ↔ viewLevels 0 W ls p0 p1 w0 w1 = .ok (ms.map Prod.swap, v0, v1) := by
  intro ls
  induction ls with
  | nil =>
    intro p0 p1 w0 w1 v0 v1 ms
    simp only [viewLevels, Except.ok.injEq, Prod.mk.injEq]
    constructor
    · rintro ⟨rfl, rfl, rfl⟩; exact ⟨rfl, rfl, rfl⟩
    · rintro ⟨h, rfl, rfl⟩
      exact ⟨(List.map_eq_nil_iff.1 h.symm).symm, rfl, rfl⟩
  | cons gs ls ih =>
    intro p0 p1 w0 w1 v0 v1 ms
    simp only [viewLevels, bind_ok_iff, Except.ok.injEq, Prod.exists, Prod.mk.injEq]
    constructor
    · rintro ⟨s, hs, ms', x, y, h, rfl, rfl, rfl⟩
      exact ⟨_, viewLevel_mirror.1 hs, ms'.map Prod.swap, y, x, (ih _ _ _ _ _ _ _).1 h, rfl, rfl, rfl⟩
    · rintro ⟨⟨s1, s2, s3, s4, s5, s6⟩, hs, ms', x, y, h, e, rfl, rfl⟩
      have hs' := viewLevel_mirror (s := ⟨s2, s1, s4, s3, s6, s5⟩).2 hs
      refine ⟨_, hs', ms'.map Prod.swap, y, x, (ih _ _ _ _ _ _ _).2 ?_, ?_, rfl, rfl⟩
      · simpa using h
      · cases ms with
        | nil => simp at e
        | cons k ms =>
          simp only [List.map_cons, List.cons.injEq] at e ⊢
          refine ⟨?_, ?_⟩
          · obtain ⟨k1, k2⟩ := k
            have := e.1
            simp only [Prod.swap, Prod.mk.injEq] at this ⊢
            exact ⟨this.2, this.1⟩
          · rw [e.2]; simp

/-- C83: the view is the one of the run modelled before, for both parties: the final wires are those of `run`, and what the second party
sees is what the first one sees with the directions exchanged. -/
theorem C83_view (n : Nat) (levels : List (List Gate)) (segs0 segs1 : List (List Block × List Block)) (w0 w1 : List Word) :
    (view 0 n levels segs0 segs1 w0 w1).map (·.2) = (run n levels segs0 segs1 w0 w1).map (fun x => (x.2.2.1, x.2.2.2)) ∧
    ∀ ms v0 v1, view 1 n levels segs1 segs0 w1 w0 = .ok (ms, v1, v0) ↔
      view 0 n levels segs0 segs1 w0 w1 = .ok (ms.map Prod.swap, v0, v1) := by
  unfold view run
  cases h : (levels.flatten.length == 0)
  · simp only [throwIf_false, ok_bind]
    exact ⟨viewLevels_run .., fun ms v0 v1 => viewLevels_mirror ..⟩
  · refine ⟨rfl, fun ms v0 v1 => ?_⟩
    simp [throwIf]

/-! ## A concrete case -/

/-- Two levels: an AND and a NOR of the inputs, then the AND of the results; wires 0 to 3 are inputs. -/
def exLevels : List (List Gate) := [[⟨0, 1, 4, .and⟩, ⟨2, 3, 5, .nor⟩], [⟨4, 5, 6, .and⟩]]
def exW (x : List Block) : List Word := (x ++ [0, 0, 0]).map fun b => [b]
def exSegs0 : List (List Block × List Block) := [([0x5a, 0x11, 0xf0, 0x3c], [1, 2, 3, 4]), ([0x99, 0x77], [5, 6])]
def exSegs1 : List (List Block × List Block) :=
  [([0x77, 0x22, 0x1f, 0x08], xorW (andW [0x5a, 0x11, 0xf0, 0x3c] [0x77, 0x22, 0x1f, 0x08]) [1, 2, 3, 4]),
   ([0x81, 0x10], xorW (andW [0x99, 0x77] [0x81, 0x10]) [5, 6])]

/-- The hypotheses of `C83_gmw` hold for a circuit of three nonlinear gates in two levels, with different inputs `w2`. -/
example : ∃ ms v0 v1, view 0 100 exLevels exSegs0 exSegs1 (exW [1, 2, 3, 4]) (exW [5, 6, 7, 8]) = .ok (ms, v0, v1) ∧
    ∃! segs2, SegsOk exSegs0 segs2 ∧ ∃ v2, view 0 100 exLevels exSegs0 segs2 (exW [1, 2, 3, 4]) (exW [0xff, 9, 0x1234, 0]) = .ok (ms, v0, v2) := by
  have w : ∀ a b c d : Block, WordsOk (width 100) 7 (exW [a, b, c, d]) := fun a b c d => ⟨rfl, by
    intro x hx
    simp only [exW, List.cons_append, List.nil_append, List.map_cons, List.map_nil, List.mem_cons, List.not_mem_nil, or_false] at hx
    rcases hx with rfl | rfl | rfl | rfl | rfl | rfl | rfl <;> rfl⟩
  obtain ⟨ms, v0, v1, e, h⟩ := C83_gmw (r := 0) (m := 7) (n := 100) (levels := exLevels) (segs0 := exSegs0) (segs1 := exSegs1)
    (by decide) (w 1 2 3 4) (w 5 6 7 8) (by decide) (by
      intro l hl g hg
      simp only [exLevels, List.mem_cons, List.not_mem_nil, or_false] at hl
      rcases hl with rfl | rfl
      · simp only [List.mem_cons, List.not_mem_nil, or_false] at hg
        rcases hg with rfl | rfl <;> exact ⟨by decide, by decide, by decide, by decide⟩
      · simp only [List.mem_cons, List.not_mem_nil, or_false] at hg
        subst hg
        exact ⟨by decide, by decide, by decide, by decide⟩)
    (by decide) ⟨⟨rfl, rfl, rfl, by decide⟩, by decide, ⟨rfl, rfl, rfl, by decide⟩, by decide, trivial⟩ (by decide)
  exact ⟨ms, v0, v1, e, h _ (w ..)⟩

end Gmw
end SecJoin
