import Verif.GMW.Props
import Verif.Cor.RequestProps
/-!
# C25: the OLEs of a run come from the generator

`init` of the GMW protocol asks the generator for OLEs; the pieces it gets are the segments that the run consumes.
-/
namespace SecJoin
namespace Gmw
open Cor (Gen Piece Inv Of Keep roundUp requests request carve carve1)

/-- All pieces that were cut from OLE batches hold an even number of blocks. -/
def EvenOle (g : Gen) (L : List Piece) : Prop := ∀ p ∈ L, (∃ r, Of g .ole r p) → p.size % 256 = 0

theorem sum_even : ∀ l : List Nat, (∀ x ∈ l, x % 256 = 0) → l.sum % 256 = 0
  | [], _ => rfl
  | a :: l, h => by
    have h1 := h a (by simp)
    have h2 := sum_even l fun x hx => h x (by simp [hx])
    rw [List.sum_cons]
    omega

theorem EvenOle.keep {g g' : Gen} {L : List Piece} (h : EvenOle g L) (hi : Inv g L) (hk : Keep g g') : EvenOle g' L := by
  rintro p hp ⟨r, hb, e1, e2⟩
  obtain ⟨-, -, -, hb', -⟩ := hi.led p hp
  obtain ⟨h', k1, k2⟩ := hk.2.2.2 _ hb'
  exact h p hp ⟨r, hb', k1.symm.trans e1, k2.symm.trans e2⟩

theorem carve1_even {g : Gen} {L : List Piece} (hi : Inv g L) (he : EvenOle g L) (hB : g.batchSize % 256 = 0) (k : Cor.Kind) (r : Bool)
    {rem : Nat} (hr : 0 < rem) (hm : rem % 128 = 0) (ho : k = .ole → rem % 256 = 0) {p : Piece} {g' : Gen} (e : carve1 g k r rem = (p, g')) :
    EvenOle g' (L ++ [p]) := by
  obtain ⟨i1, i2, i3, i4, i5, i6, -, ⟨hb, ik, ir⟩, i9, i10⟩ := Cor.carve1_inv hi k r hr hm e
  have he' := he.keep hi ⟨i2, i3, i9, i10⟩
  intro q hq hof
  rw [List.mem_append, List.mem_singleton] at hq
  rcases hq with hq | rfl
  · exact he' q hq hof
  · obtain ⟨r', _, o1, -⟩ := hof
    rw [ik] at o1
    by_cases hlt : q.size < rem
    · have hfull := (i6 hlt).1
      have hsum : (((L ++ [q]).filter fun p => p.batch == q.batch).map Piece.size).sum = g'.batches[q.batch].size := i1.sum q.batch hb
      have hle := (i1.size q.batch hb).1
      obtain ⟨-, -, -, _, hled⟩ := i1.led q (by simp)
      rw [List.filter_append, List.map_append, List.sum_append] at hsum
      have hone : (([q].filter fun p => p.batch == q.batch).map Piece.size).sum = q.size := by simp
      rw [hone] at hsum
      have hev : ((L.filter fun p => p.batch == q.batch).map Piece.size).sum % 256 = 0 := by
        refine sum_even _ fun x hx => ?_
        obtain ⟨y, hy, rfl⟩ := List.mem_map.1 hx
        obtain ⟨hyL, hyb⟩ := List.mem_filter.1 hy
        have hyb' : y.batch = q.batch := by simpa using hyb
        refine he' y hyL ⟨r, ?_⟩
        unfold Of
        simp only [hyb']
        exact ⟨hb, ik.trans o1, ir⟩
      rw [i2] at hle
      omega
    · have := ho o1
      have : q.size = rem := by omega
      omega

theorem carve_even (k : Cor.Kind) (r : Bool) : ∀ (rem : Nat) (g : Gen) (L : List Piece), Inv g L → EvenOle g L → g.batchSize % 256 = 0 →
    rem % 128 = 0 → (k = .ole → rem % 256 = 0) → ∀ ps g', carve g k r rem = .ok (ps, g') → EvenOle g' (L ++ ps) := by
  intro rem
  induction rem using Nat.strongRecOn with
  | ind rem ih =>
    intro g L hi he hB hm ho ps g' hc
    rw [carve] at hc
    by_cases h0 : rem = 0
    · rw [if_pos h0] at hc
      cases hc
      simpa using he
    · rw [if_neg h0] at hc
      obtain ⟨p, g1, e⟩ : ∃ p g1, carve1 g k r rem = (p, g1) := ⟨_, _, rfl⟩
      obtain ⟨i1, i2, -, i3, i4, -, -, ⟨hb, ik, ir⟩, -⟩ := Cor.carve1_inv hi k r (by omega) hm e
      have t1 := carve1_even hi he hB k r (by omega) hm ho e
      rw [e] at hc
      simp only at hc
      rw [dif_neg (by omega)] at hc
      cases hr : carve g1 k r (rem - p.size) with
      | error _ => rw [hr] at hc; cases hc
      | ok x =>
        obtain ⟨ps', g2⟩ := x
        rw [hr] at hc
        cases hc
        have hp := (i1.led p (by simp)).2.1
        have := ih _ (by omega) g1 _ i1 t1 (by rw [i2]; exact hB) (by omega) (fun hk => by
          have h1 := ho hk
          have h2 := t1 p (by simp) ⟨r, hb, ik.trans hk, ir⟩
          omega) _ _ hr
        simpa [List.append_assoc] using this

theorem requests_even : ∀ (rs : List (Cor.Kind × Bool × Nat)) (g : Gen) (L : List Piece), Inv g L → EvenOle g L → g.batchSize % 256 = 0 →
    (∀ q ∈ rs, q.1 = .ole → roundUp q.2.2 % 256 = 0) → ∀ pss g', requests g rs = .ok (pss, g') → EvenOle g' (L ++ pss.flatten) := by
  intro rs
  induction rs with
  | nil =>
    intro g L _ he _ _ pss g' h
    cases h
    simpa using he
  | cons q rs ih =>
    obtain ⟨k, s, n⟩ := q
    intro g L hi he hB ho pss g' h
    obtain ⟨ps, g1, c1, c2, c3, -⟩ := Cor.carve_inv k (Cor.roleOf g k s) (roundUp n) g L hi (Cor.roundUp_mod n)
    have t1 := carve_even k (Cor.roleOf g k s) _ g L hi he hB (Cor.roundUp_mod n) (ho (k, s, n) (by simp)) _ _ c1
    rw [requests, request, c1, ok_bind] at h
    simp only at h
    cases hr : requests g1 rs with
    | error _ => rw [hr] at h; cases h
    | ok x =>
      obtain ⟨pss', g2⟩ := x
      rw [hr] at h
      cases h
      have := ih g1 _ c2 t1 (by rw [c3.1]; exact hB) (fun q hq => ho q (by simp [hq])) _ _ hr
      simpa [List.append_assoc] using this

/-- What `get` delivers for the pieces of a request: for each piece the two parties hold as many blocks of valid OLEs as the
piece is long (C44). -/
def Delivered : List Piece → List (List Block × List Block) → List (List Block × List Block) → Prop
  | [], [], [] => True
  | p :: ps, s :: ss, t :: ts => 128 * s.1.length = p.size ∧ Ole s.1 s.2 t.1 t.2 ∧ Delivered ps ss ts
  | _, _, _ => False

theorem Delivered.ok : ∀ {ps : List Piece} {ss ts : List (List Block × List Block)}, Delivered ps ss ts → (∀ p ∈ ps, p.size % 256 = 0) →
    SegsOk ss ts ∧ 128 * (ss.map fun s => s.2.length).sum = (ps.map Piece.size).sum
  | [], [], [], _, _ => ⟨trivial, rfl⟩
  | p :: ps, s :: ss, t :: ts, h, he => by
    obtain ⟨h1, h2, h3⟩ := h
    obtain ⟨r1, r2⟩ := Delivered.ok h3 fun q hq => he q (by simp [hq])
    have hp := he p (by simp)
    refine ⟨⟨h2, by omega, r1⟩, ?_⟩
    simp only [List.map_cons, List.sum_cons]
    rw [h2.l1]
    omega

theorem numOles_even (n : Nat) (levels : List (List Gate)) : roundUp (numOles n levels) = numOles n levels ∧ numOles n levels % 256 = 0 := by
  have : numOles n levels = 256 * ((levels.map ands).sum * divCeil n 128) := by unfold numOles; ring
  rw [this]
  unfold roundUp
  omega

theorem append_requests : ∀ (rs rs' : List (Cor.Kind × Bool × Nat)) (g : Gen),
    requests g (rs ++ rs') = (do
      let (a, g) ← requests g rs
      let (b, g) ← requests g rs'
      .ok (a ++ b, g))
  | [], rs', g => by
    rw [List.nil_append, requests, ok_bind]
    simp only
    cases requests g rs' <;> rfl
  | (k, s, n) :: rs, rs', g => by
    rw [List.cons_append, requests, requests]
    cases request g k s n with
    | error _ => rfl
    | ok x =>
      simp only [ok_bind]
      rw [append_requests rs rs']
      cases requests x.2 rs with
      | error _ => rfl
      | ok y =>
        simp only [ok_bind]
        cases requests y.2 rs' <;> rfl

/-- After any requests among which those for OLEs were for an even number of blocks, a request for an even number of blocks of OLEs
is cut into pieces of even numbers of blocks. -/
theorem even_pieces {party : Bool} {nc B : Nat} {g : Gen} (h0 : Gen.new party nc B = .ok g) (hB : B % 256 = 0)
    (before : List (Cor.Kind × Bool × Nat)) (hb : ∀ q ∈ before, q.1 = .ole → (q.2.2 + 127) / 128 % 2 = 0) (send : Bool) {N : Nat} (hN : N % 256 = 0) :
    ∃ pss ps g', requests g (before ++ [(Cor.Kind.ole, send, N)]) = .ok (pss ++ [ps], g') ∧ (ps.map Piece.size).sum = N ∧
      ∀ p ∈ ps, p.size % 256 = 0 := by
  have hru : roundUp N = N := Cor.roundUp_of_dvd (by omega)
  obtain ⟨i0, e0, -, -, -, -, -, e1, -⟩ := Cor.new_inv h0 (by omega : B % 128 = 0)
  obtain ⟨pss, ga, a1, a2, a3, -⟩ := Cor.requests_inv before g [] i0
  rw [List.nil_append] at a2
  obtain ⟨ps, gb, b1, b2, b3, b4, b5, -⟩ := Cor.carve_inv .ole (Cor.roleOf ga .ole send) (roundUp N) ga _ a2 (Cor.roundUp_mod _)
  have ev0 : EvenOle g [] := fun p hp => absurd hp (by simp)
  have ev1 := requests_even before g [] i0 ev0 (by rw [e0]; exact hB) (fun q hq hk => by
    have := hb q hq hk
    unfold roundUp
    omega) _ _ a1
  rw [List.nil_append] at ev1
  have ev2 := carve_even .ole _ _ ga _ a2 ev1 (by rw [a3.1, e0]; exact hB) (Cor.roundUp_mod _) (fun _ => by rw [hru]; exact hN) _ _ b1
  refine ⟨pss, ps, gb, ?_, b4.trans hru, fun p hp => ev2 p (by simp [hp]) ⟨_, b5 p hp⟩⟩
  rw [append_requests, a1, ok_bind]
  simp only [requests, request, b1, ok_bind]

/-- C25, for batch sizes that are an even number of blocks (as the default) and if every earlier request for OLEs was for an even
number of blocks (as all requests of this library are): the OLEs that `init` asks for arrive in segments with which the run
finishes and computes the circuit. Missing: other batch sizes and other requests, see `C25_false` and `C25_request_false`. -/
theorem C25_generator_partial {nc0 nc1 B : Nat} {g0 g1 : Gen} (h0 : Gen.new false nc0 B = .ok g0) (h1 : Gen.new true nc1 B = .ok g1)
    (hB : B % 256 = 0) (before : List (Cor.Kind × Bool × Nat))
    (hb : ∀ q ∈ before, q.1 = .ole → (q.2.2 + 127) / 128 % 2 = 0) (send : Bool)
    {m n : Nat} {levels : List (List Gate)} {w0 w1 : List Word} (hw0 : WordsOk (width n) m w0) (hw1 : WordsOk (width n) m w1)
    (hne : levels.flatten ≠ []) (hg : ∀ l ∈ levels, ∀ g ∈ l, GateOk m g) (hl : ∀ l ∈ levels, LevelOk l) :
    ∃ pss ps g0' g1', requests g0 (before ++ [(Cor.Kind.ole, send, numOles n levels)]) = .ok (pss ++ [ps], g0') ∧
      requests g1 ((before ++ [(Cor.Kind.ole, send, numOles n levels)]).map Cor.mirrorReq) = .ok (pss ++ [ps], g1') ∧
      ∀ segs0 segs1, Delivered ps segs0 segs1 → ∃ q0 q1 v0 v1, run n levels segs0 segs1 w0 w1 = .ok (q0, q1, v0, v1) ∧
        (∀ k < n, ∀ i < m, recon v0 v1 k i = evalGates levels.flatten (recon w0 w1 k) i) ∧ q0.total = 0 ∧ q1.total = 0 := by
  obtain ⟨pss, ps, gb, hreq, b4, hev⟩ := even_pieces h0 hB before hb send (N := numOles n levels) (by have := numOles_even n levels; omega)
  obtain ⟨g1', hm, -⟩ := Cor.C40_pieces h0 h1 _ hreq
  refine ⟨pss, ps, gb, g1', hreq, hm, fun segs0 segs1 hd => ?_⟩
  obtain ⟨s1, s2⟩ := hd.ok hev
  exact C24_run hw0 hw1 hne hg hl s1 (by rw [s2, b4])

theorem run_hangs {n : Nat} {gs : List Gate} {ls : List (List Gate)} {p : Piece} {ps : List Piece}
    (hodd : p.size / 128 % 2 = 1) (hn : p.size / 256 < width n * ands gs) {segs0 segs1 : List (List Block × List Block)}
    (hd : Delivered (p :: ps) segs0 segs1) (w0 w1 : List Word) : run n (gs :: ls) segs0 segs1 w0 w1 = .error .diverge := by
  cases segs0 with
  | nil => exact absurd hd (by simp [Delivered])
  | cons s ss =>
    cases segs1 with
    | nil => exact absurd hd (by simp [Delivered])
    | cons t ts =>
      obtain ⟨d1, d2, -⟩ := hd
      have hgs : gs ≠ [] := by
        rintro rfl
        simp [ands] at hn
      unfold run
      have : ((gs :: ls).flatten.length == 0) = false := by
        cases gs with
        | nil => exact absurd rfl hgs
        | cons _ _ => simp
      rw [this, throwIf_false, ok_bind, runLevels, runLevel]
      have l1 := d2.l1
      have key : fetch 0 (width n * ands gs + (s :: ss).length) (width n * ands gs) ⟨[], [], s :: ss⟩ = .error .diverge := by
        obtain ⟨k, hk⟩ : ∃ k, width n * ands gs = k + 1 := ⟨width n * ands gs - 1, by omega⟩
        have hf := C25_odd_segment_hangs 0 (k + 1 + (s :: ss).length) (k + 1) ⟨s.1, s.2, ss⟩ l1.symm (by simp only; omega) (by simp only; omega)
        rw [hk, show k + 1 + (s :: ss).length = (k + (s :: ss).length) + 1 by omega] at *
        rw [fetch] at hf ⊢
        have hr1 : refill ⟨[], [], s :: ss⟩ = .ok ⟨s.1, s.2, ss⟩ := rfl
        have hr2 : refill ⟨s.1, s.2, ss⟩ = .ok ⟨s.1, s.2, ss⟩ := by
          unfold refill
          rw [if_neg (by simp only; omega)]
        rw [hr1]
        rw [hr2] at hf
        exact hf
      simp only [key, err_bind]

/-- The first piece of the first request, if it is for more than a batch. -/
theorem first_piece {party : Bool} {nc B : Nat} {g : Gen} (hg : Gen.new party nc B = .ok g) (hB : B % 128 = 0) (send : Bool) {N : Nat} (hNB : B < N)
    (hNm : N % 128 = 0) : ∃ p ps g', requests g [(Cor.Kind.ole, send, N)] = .ok ([p :: ps], g') ∧ p.size = B := by
  obtain ⟨i0, e0, -, hlo, hhi, -, -, e1, e2⟩ := Cor.new_inv hg hB
  have hN128 : roundUp N = N := Cor.roundUp_of_dvd hNm
  obtain ⟨p, g1, e⟩ : ∃ p g1, carve1 g .ole (Cor.roleOf g .ole send) N = (p, g1) := ⟨_, _, rfl⟩
  obtain ⟨i1, i2, -, i4, i5, i6, i7, -⟩ := Cor.carve1_inv i0 .ole (Cor.roleOf g .ole send) (by omega) hNm e
  have hoff : p.off = 0 := i7 (by rw [e2])
  obtain ⟨-, hp2, -, hb, hfit⟩ := i1.led p (by simp)
  have hsz : p.size = B := by
    by_cases hlt : p.size < N
    · have := (i6 hlt).1
      omega
    · have h3 := (i1.size p.batch hb).1
      have h4 : g1.batchSize = B := i2.trans e0
      omega
  obtain ⟨ps, g2, c1, -⟩ := Cor.carve_inv .ole (Cor.roleOf g .ole send) (N - p.size) g1 _ i1 (by omega)
  refine ⟨p, ps, g2, ?_, hsz⟩
  rw [requests, request, hN128, carve, if_neg (by omega)]
  simp only [e]
  rw [dif_neg (by omega), c1]
  rfl

/-- C25 is false for every accepted batch size that is an odd number of blocks (such as 1152): the OLEs of a circuit whose first
level needs more than a batch arrive in a segment with which the run does not end. -/
theorem C25_false {nc B : Nat} {g : Gen} (hg : Gen.new false nc B = .ok g) (hB : B % 256 = 128) (send : Bool) {n : Nat} {gs : List Gate}
    (ls : List (List Gate)) (hn : B < 256 * (width n * ands gs)) :
    ∃ ps g', requests g [(.ole, send, numOles n (gs :: ls))] = .ok ([ps], g') ∧
      ∀ segs0 segs1 w0 w1, Delivered ps segs0 segs1 → run n (gs :: ls) segs0 segs1 w0 w1 = .error .diverge := by
  have hnum : numOles n (gs :: ls) = 256 * (width n * ands gs) + 256 * (width n * (ls.map ands).sum) := by
    unfold numOles width
    simp only [List.map_cons, List.sum_cons]
    ring
  obtain ⟨p, ps, g', h1, h2⟩ := first_piece hg (by omega) send (N := numOles n (gs :: ls)) (by omega) (by have := numOles_even n (gs :: ls); omega)
  exact ⟨p :: ps, g', h1, fun segs0 segs1 w0 w1 hd => run_hangs (by omega) (by omega) hd w0 w1⟩

/-- C25 is false also for even batch sizes, if something else asked for a single block of OLEs before. -/
theorem C25_request_false {nc B : Nat} {g : Gen} (hg : Gen.new false nc B = .ok g) (hB : B % 256 = 0) (send : Bool) {n : Nat} {gs : List Gate}
    (ls : List (List Gate)) (hn : B ≤ 256 * (width n * ands gs)) :
    ∃ p ps g', requests g [(.ole, send, 128), (.ole, send, numOles n (gs :: ls))] = .ok ([[p], ps], g') ∧
      ∀ segs0 segs1 w0 w1, Delivered ps segs0 segs1 → run n (gs :: ls) segs0 segs1 w0 w1 = .error .diverge := by
  obtain ⟨i0, e0, -, hlo, hhi, -, -, e1, e2⟩ := Cor.new_inv hg (by omega : B % 128 = 0)
  obtain ⟨pss, g', r1, -, -, r4⟩ := Cor.requests_inv [(.ole, send, 128), (.ole, send, numOles n (gs :: ls))] g [] i0
  have hnum : numOles n (gs :: ls) = 256 * (width n * ands gs) + 256 * (width n * (ls.map ands).sum) := by
    unfold numOles width
    simp only [List.map_cons, List.sum_cons]
    ring
  have hNm := (numOles_even n (gs :: ls))
  generalize hN : numOles n (gs :: ls) = N at *
  have hge : g = ⟨B, false, fun _ _ => none, []⟩ := by
    obtain ⟨a, b, c, d⟩ := (Cor.C39_new false nc B).1 ⟨g, hg⟩
    unfold Gen.new at hg
    rw [decide_eq_false (by omega), decide_eq_false (by omega), show (nc == 0) = false by simp; omega, decide_eq_false (by omega)] at hg
    exact (Except.ok.inj hg).symm
  subst hge
  have hs : Cor.sub64 B 0 = B := by rw [Cor.sub64_eq (by omega) (by omega)]; rfl
  have hs' : Cor.sub64 B 128 = B - 128 := Cor.sub64_eq (by omega) (by omega)
  have c1 : carve ⟨B, false, fun _ _ => none, []⟩ .ole false 128 =
      .ok ([⟨0, 0, 128⟩], ⟨B, false, Cor.setCur (fun _ _ => none) .ole false (some 0), [⟨.ole, false, 128⟩]⟩) := by
    have e : carve1 ⟨B, false, fun _ _ => none, []⟩ .ole false 128 =
        (⟨0, 0, 128⟩, ⟨B, false, Cor.setCur (fun _ _ => none) .ole false (some 0), [⟨.ole, false, 128⟩]⟩) := by
      simp only [carve1, Cor.pick]
      have : roundUp (min 128 B) = 128 := by rw [Nat.min_eq_left (by omega)]; rfl
      simp [hs, this]
      omega
    rw [carve, if_neg (by omega)]
    simp only [e]
    rw [dif_neg (by omega), Nat.sub_self, carve]
    rfl
  have c2 : carve1 ⟨B, false, Cor.setCur (fun _ _ => none) .ole false (some 0), [⟨.ole, false, 128⟩]⟩ .ole false N =
      (⟨0, 128, B - 128⟩, ⟨B, false, Cor.setCur (Cor.setCur (fun _ _ => none) .ole false (some 0)) .ole false none, [⟨.ole, false, 128 + (B - 128)⟩]⟩) := by
    have hp : Cor.pick ⟨B, false, Cor.setCur (fun _ _ => none) .ole false (some 0), [⟨.ole, false, 128⟩]⟩ .ole false =
        (0, ⟨B, false, Cor.setCur (fun _ _ => none) .ole false (some 0), [⟨.ole, false, 128⟩]⟩) := by
      simp [Cor.pick, Cor.setCur]
    have : roundUp (min N (B - 128)) = B - 128 := by
      rw [Nat.min_eq_right (by omega)]
      exact Cor.roundUp_of_dvd (by omega)
    unfold carve1
    rw [hp]
    simp [hs', this]
  rw [requests, request, show Cor.roleOf ⟨B, false, fun _ _ => none, []⟩ .ole send = false from rfl, show roundUp 128 = 128 from rfl, c1, ok_bind] at r1 ⊢
  simp only [requests, request] at r1 ⊢
  rw [show Cor.roleOf ⟨B, false, Cor.setCur (fun _ _ => none) .ole false (some 0), [⟨.ole, false, 128⟩]⟩ .ole send = false from rfl, hNm.1,
    carve, if_neg (by omega)] at r1 ⊢
  simp only [c2] at r1 ⊢
  rw [dif_neg (by omega)] at r1 ⊢
  cases hc : carve ⟨B, false, Cor.setCur (Cor.setCur (fun _ _ => none) .ole false (some 0)) .ole false none, [⟨.ole, false, 128 + (B - 128)⟩]⟩
      .ole false (N - (B - 128)) with
  | error _ => rw [hc] at r1; cases r1
  | ok x =>
    refine ⟨⟨0, 0, 128⟩, ⟨0, 128, B - 128⟩ :: x.1, x.2, rfl, fun segs0 segs1 w0 w1 hd => run_hangs ?_ ?_ hd w0 w1⟩
    · simp only; omega
    · simp only; omega

/-! ## Cases that meet the hypotheses -/

/-- The default batch size, and earlier requests of the PRF and of another circuit. -/
example : (∃ g, Gen.new false 4 (2 ^ 14) = .ok g) ∧ 2 ^ 14 % 256 = 0 ∧
    ∀ q ∈ [(Cor.Kind.trit, true, 77), (.ole, false, 1000 * 256)], q.1 = .ole → (q.2.2 + 127) / 128 % 2 = 0 :=
  ⟨(Cor.C39_new _ _ _).2 (by decide), by decide, by decide⟩

/-- Batch size 1152 is accepted; five AND gates on 129 instances need ten blocks of OLEs of each direction. -/
example : (∃ g, Gen.new false 4 1152 = .ok g) ∧ 1152 % 256 = 128 ∧
    1152 < 256 * (width 129 * ands (List.replicate 5 ⟨0, 1, 2, .and⟩)) :=
  ⟨(Cor.C39_new _ _ _).2 (by decide), by decide, by decide⟩

example : Delivered [⟨0, 0, 256⟩] [([1, 2], [0, 2])] [([1, 3], [1, 0])] := ⟨rfl, ⟨rfl, rfl, rfl, by decide⟩, trivial⟩

end Gmw
end SecJoin
