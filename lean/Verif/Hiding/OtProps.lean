import Verif.Hiding.OtLemmas
/-!
# C84: the OT-based steps of the sort
-/
namespace SecJoin
namespace Radix

/-- The transcript belongs to the bit injection of C22. -/
theorem injLoopView_run (outBits : Nat) (mask : BitVec 32) (in0 in1 : List Row) (w total : Nat) : ∀ (bs : List (List Ot)) (i : Nat),
    (injLoopView outBits mask in0 in1 w total bs i).map (fun v => v.2.2) = injLoop outBits mask in0 in1 w total bs i
  | [], i => by
    unfold injLoopView injLoop
    split <;> rfl
  | b :: bs, i => by
    unfold injLoopView injLoop
    split
    · rfl
    have hb : ∀ ots, (injBatchView outBits mask in0 in1 w ots i).map (fun v => v.2.2) = injBatch outBits mask in0 in1 w ots i := by
      intro ots
      unfold injBatchView injBatch
      cases mapRes (inBit in1 w) (List.range' i ots.length) with
      | error e => rfl
      | ok xs =>
        cases mapRes (inBit in0 w) (List.range' i ots.length) with
        | error e => rfl
        | ok ys =>
          simp only [ok_bind]
          generalize unpack _ _ _ = u
          cases u <;> rfl
    simp only [← hb]
    cases injBatchView outBits mask in0 in1 w (b.take (min b.length (total - i))) i with
    | error e => rfl
    | ok x =>
      have := injLoopView_run outBits mask in0 in1 w total bs (i + (b.take (min b.length (total - i))).length)
      simp only [Except.map, ok_bind]
      rw [← this]
      cases injLoopView outBits mask in0 in1 w total bs (i + (b.take (min b.length (total - i))).length) <;> rfl

theorem C84_inject_run (n w outBits : Nat) (in0 in1 : Mat Row) (bs : List (List Ot)) :
    (injView n w outBits in0 in1 bs).map (fun v => v.2.2) = bitInjection n w outBits in0 in1 bs := by
  unfold injView bitInjection
  cases throwIf (decide (w > in0.cols * 8) || decide (w > in1.cols * 8)) with
  | error e => rfl
  | ok _ =>
    cases throwIf (in0.rows.length != n || in1.rows.length != n) with
    | error e => rfl
    | ok _ =>
      cases injMask outBits with
      | error e => rfl
      | ok m =>
        cases throwIf (decide ((bs.map List.length).sum < n * w)) with
        | error e => rfl
        | ok _ => exact injLoopView_run ..

/-- C84, bit injection, the view of the sender of the OTs (party 0), which holds both messages of every OT: whatever other bits `in1'` party 1 has,
exactly one list of choice bits shows party 0 the same, and gives it the same output and the same message to send. -/
theorem C84_inject0 {n w c0 c1 : Nat} {in0 in1 in1' : Mat Row} {bs : List (List Ot)}
    (hs0 : Shape n c0 in0.rows) (hs1 : Shape n c1 in1.rows) (hs1' : Shape n c1 in1'.rows)
    (hc0 : in0.cols = c0) (hc1 : in1.cols = c1) (hc1' : in1'.cols = c1)
    (hw0 : w ≤ 8 * c0) (hw1 : w ≤ 8 * c1) (hb : (bs.map List.length).sum = n * w) :
    ∃ d m o0 o1, injView n w 32 in0 in1 bs = .ok (d, m, o0, o1) ∧
      ∃! bs' : List (List Ot), bs'.map (List.map fun o => (o.m0, o.m1)) = bs.map (List.map fun o => (o.m0, o.m1)) ∧
        ∃ o1', injView n w 32 in0 in1' bs' = .ok (d, m, o0, o1') := by
  have e := injView_ok hs0 hs1 hc0 hc1 hw0 hw1 hb
  refine ⟨_, _, _, _, e, ?_⟩
  obtain ⟨bs', ⟨p1, p2⟩, pu⟩ := batches_unique (f := fun o : Ot => (o.m0, o.m1)) (g := fun k o => bitAt in1 w k ^^ o.c)
    (g' := fun k o => bitAt in1' w k ^^ o.c) (fun k o => choice_unique o _ _) bs
  refine ⟨bs', ⟨p1, ?_⟩, ?_⟩
  · have q := (map_flatten_eq.1 p1).2
    have e2 := injView_ok hs0 hs1' hc0 hc1' hw0 hw1 ((shape_sum p1).trans hb)
    rw [p2] at e2
    have es : ∀ k (h1 : k < bs.flatten.length) (h2 : k < bs'.flatten.length),
        (bs'.flatten[k].m0, bs'.flatten[k].m1) = (bs.flatten[k].m0, bs.flatten[k].m1) →
        injSend (BitVec.allOnes 32) bs'.flatten[k] (bitAt in0 w k) (bitAt in1' w k ^^ bs'.flatten[k].c) =
        injSend (BitVec.allOnes 32) bs.flatten[k] (bitAt in0 w k) (bitAt in1 w k ^^ bs.flatten[k].c) := by
      intro k h1 h2 h
      have := mapIdx_get p2 h1 h2
      simp only [injSend, msg_eq h, this]
    rw [mapIdx_eq (g := fun k o => (injSend (BitVec.allOnes 32) o (bitAt in0 w k) (bitAt in1 w k ^^ o.c)).2)
        (g' := fun k o => (injSend (BitVec.allOnes 32) o (bitAt in0 w k) (bitAt in1' w k ^^ o.c)).2) q
        (fun k h1 h2 h => by simp only [es k h1 h2 h]),
      mapIdx_eq (g := fun k o => (injSend (BitVec.allOnes 32) o (bitAt in0 w k) (bitAt in1 w k ^^ o.c)).1)
        (g' := fun k o => (injSend (BitVec.allOnes 32) o (bitAt in0 w k) (bitAt in1' w k ^^ o.c)).1) q
        (fun k h1 h2 h => by simp only [es k h1 h2 h])] at e2
    exact ⟨_, e2⟩
  · rintro b2 ⟨q1, o1', q2⟩
    rw [injView_ok hs0 hs1' hc0 hc1' hw0 hw1 ((shape_sum q1).trans hb)] at q2
    simp only [Except.ok.injEq, Prod.mk.injEq] at q2
    exact pu b2 ⟨q1, q2.1⟩

/-- C84, bit injection, the view of the receiver of the OTs (party 1), which holds the choice bit and the chosen message of every OT: whatever other
bits `in0'` party 0 has, exactly one choice of the other messages shows party 1 the same, and gives it the same output. -/
theorem C84_inject1 {n w c0 c1 : Nat} {in0 in0' in1 : Mat Row} {bs : List (List Ot)}
    (hs0 : Shape n c0 in0.rows) (hs0' : Shape n c0 in0'.rows) (hs1 : Shape n c1 in1.rows)
    (hc0 : in0.cols = c0) (hc0' : in0'.cols = c0) (hc1 : in1.cols = c1)
    (hw0 : w ≤ 8 * c0) (hw1 : w ≤ 8 * c1) (hb : (bs.map List.length).sum = n * w) :
    ∃ d m o0 o1, injView n w 32 in0 in1 bs = .ok (d, m, o0, o1) ∧
      ∃! bs' : List (List Ot), bs'.map (List.map fun o => (o.c, o.got)) = bs.map (List.map fun o => (o.c, o.got)) ∧
        ∃ o0', injView n w 32 in0' in1 bs' = .ok (d, m, o0', o1) := by
  have e := injView_ok hs0 hs1 hc0 hc1 hw0 hw1 hb
  refine ⟨_, _, _, _, e, ?_⟩
  have upd : ∀ (o : Ot) (y x : Bool), (injSend (BitVec.allOnes 32) o y (x ^^ o.c)).2 =
      o.msg (x ^^ o.c) - o.msg (!(x ^^ o.c)) + (-2 * word y + 1) := by
    intro o y x
    simp only [injSend, BitVec.and_allOnes]
    ring
  obtain ⟨bs', ⟨p1, p2⟩, pu⟩ := batches_unique (f := fun o : Ot => (o.c, o.got))
    (g := fun k o => (injSend (BitVec.allOnes 32) o (bitAt in0 w k) (bitAt in1 w k ^^ o.c)).2)
    (g' := fun k o => (injSend (BitVec.allOnes 32) o (bitAt in0' w k) (bitAt in1 w k ^^ o.c)).2)
    (fun k o => by simp only [upd]; exact other_unique o _ _ _) bs
  refine ⟨bs', ⟨p1, ?_⟩, ?_⟩
  · have q := (map_flatten_eq.1 p1).2
    have e2 := injView_ok hs0' hs1 hc0' hc1 hw0 hw1 ((shape_sum p1).trans hb)
    rw [p2, mapIdx_eq (g := fun k o => bitAt in1 w k ^^ o.c) (g' := fun k o => bitAt in1 w k ^^ o.c) q
        (fun k h1 h2 h => by simp only [Prod.mk.injEq] at h; simp only [h.1]),
      mapIdx_eq (g := fun k o => injRecv (BitVec.allOnes 32) o (bitAt in1 w k)
          (injSend (BitVec.allOnes 32) o (bitAt in0 w k) (bitAt in1 w k ^^ o.c)).2)
        (g' := fun k o => injRecv (BitVec.allOnes 32) o (bitAt in1 w k)
          (injSend (BitVec.allOnes 32) o (bitAt in0' w k) (bitAt in1 w k ^^ o.c)).2) q
        (fun k h1 h2 h => by
          have := mapIdx_get p2 h1 h2
          simp only [Prod.mk.injEq] at h
          rw [this]
          simp only [injRecv, h.2])] at e2
    exact ⟨_, e2⟩
  · rintro b2 ⟨q1, o0', q2⟩
    rw [injView_ok hs0' hs1 hc0' hc1 hw0 hw1 ((shape_sum q1).trans hb)] at q2
    simp only [Except.ok.injEq, Prod.mk.injEq] at q2
    refine pu b2 ⟨q1, bytes_inj ?_ q2.2.1⟩
    rw [List.length_mapIdx, List.length_mapIdx]
    have := congrArg List.length (map_flatten_eq.1 q1).2
    rwa [List.length_map, List.length_map] at this

/-- Two rows of nine bits in three batches: a transcript exists and the hypotheses of `C84_inject0` and `C84_inject1` hold. -/
def exOt (k : Nat) : Ot := ⟨BitVec.ofNat 32 (k * 2654435761), BitVec.ofNat 32 (k * k * 40503 + 7), k % 3 == 0⟩
def exBatches : List (List Ot) := [(List.range 5).map exOt, (List.range' 5 9).map exOt, (List.range' 14 4).map exOt]

example : ∃ d m o0 o1, injView 2 9 32 ⟨2, [[0x5a, 1], [0xff, 0]]⟩ ⟨2, [[0x33, 0], [0x0f, 1]]⟩ exBatches = .ok (d, m, o0, o1) ∧
    ∃! bs' : List (List Ot), bs'.map (List.map fun o => (o.m0, o.m1)) = exBatches.map (List.map fun o => (o.m0, o.m1)) ∧
      ∃ o1', injView 2 9 32 ⟨2, [[0x5a, 1], [0xff, 0]]⟩ ⟨2, [[0xc4, 1], [0, 0]]⟩ bs' = .ok (d, m, o0, o1') :=
  C84_inject0 (c0 := 2) (c1 := 2) ⟨rfl, by decide⟩ ⟨rfl, by decide⟩ ⟨rfl, by decide⟩ rfl rfl rfl (by decide) (by decide) (by decide)

example : ∃ d m o0 o1, injView 2 9 32 ⟨2, [[0x5a, 1], [0xff, 0]]⟩ ⟨2, [[0x33, 0], [0x0f, 1]]⟩ exBatches = .ok (d, m, o0, o1) ∧
    ∃! bs' : List (List Ot), bs'.map (List.map fun o => (o.c, o.got)) = exBatches.map (List.map fun o => (o.c, o.got)) ∧
      ∃ o0', injView 2 9 32 ⟨2, [[0xa5, 0], [0, 1]]⟩ ⟨2, [[0x33, 0], [0x0f, 1]]⟩ bs' = .ok (d, m, o0', o1) :=
  C84_inject1 (c0 := 2) (c1 := 2) ⟨rfl, by decide⟩ ⟨rfl, by decide⟩ ⟨rfl, by decide⟩ rfl rfl rfl (by decide) (by decide) (by decide)

/-- The transcript belongs to the inner products of C22. -/
theorem hadRowView_run (fP fQ : List Byte) (sQ : List (BitVec 32)) : ∀ (c : Nat) (os : List Ot) (k : Nat) (p q : BitVec 32),
    (hadRowView fP fQ sQ os c k p q).map (fun v => v.2.2) = hadRow fP fQ sQ os c k p q
  | 0, os, k, p, q => by cases os <;> rfl
  | c + 1, [], k, p, q => rfl
  | c + 1, o :: os, k, p, q => by
    unfold hadRowView hadRow
    cases flatBit fP k with
    | error e => rfl
    | ok a =>
      cases flatBit fQ k with
      | error e => rfl
      | ok b =>
        cases rd sQ k with
        | error e => rfl
        | ok s =>
          simp only [ok_bind]
          rw [← hadRowView_run fP fQ sQ c os]
          cases hadRowView fP fQ sQ os c (k + 1) (p + o.got + (hadReply o (o.c ^^ a) b s).1 * word a) (q - (hadReply o (o.c ^^ a) b s).2) <;> rfl

theorem hadRowsView_run (fP fQ : List Byte) (sQ : List (BitVec 32)) (cols : Nat) : ∀ (m : Nat) (ots : List Ot) (i : Nat),
    (hadRowsView fP fQ sQ cols ots i m).map (fun v => v.2.2) = hadRows fP fQ sQ cols ots i m
  | 0, _, _ => rfl
  | m + 1, ots, i => by
    unfold hadRowsView hadRows
    rw [← hadRowView_run fP fQ sQ cols ots, ← hadRowsView_run fP fQ sQ cols m]
    cases hadRowView fP fQ sQ ots cols (i * cols) 0 0 with
    | error e => rfl
    | ok x => cases hadRowsView fP fQ sQ cols (ots.drop cols) (i + 1) m <;> rfl

theorem C84_inner_run (fP fQ : List Byte) (sQ : List (BitVec 32)) (rows cols : Nat) : ∀ (bs : List (List Ot)) (i : Nat),
    (hadView fP fQ sQ rows cols bs i).map (fun v => v.2.2) = hadLoop fP fQ sQ rows cols bs i
  | [], i => by
    unfold hadView hadLoop
    split <;> rfl
  | b :: bs, i => by
    unfold hadView hadLoop
    split
    · rfl
    dsimp only
    rw [← hadRowsView_run, ← C84_inner_run fP fQ sQ rows cols bs]
    cases throwIf (b.length % cols != 0) with
    | error e => rfl
    | ok _ =>
      cases hadRowsView fP fQ sQ cols b i (min (rows - i) (b.length / cols)) with
      | error e => rfl
      | ok x => cases hadView fP fQ sQ rows cols bs (i + min (rows - i) (b.length / cols)) <;> rfl

/-- C84, inner products, the view of the sender of the OTs: whatever other bits `fP'` the other party has, exactly one list of choice bits
shows it the same, and gives it the same sums and the same values to send back. -/
theorem C84_inner_bits {fP fP' fQ : List Byte} {sQ : List (BitVec 32)} {cols n : Nat} {bs : List (List Ot)} (hc : 0 < cols)
    (h1 : n * cols ≤ 8 * fP.length) (h1' : n * cols ≤ 8 * fP'.length) (h2 : n * cols ≤ 8 * fQ.length) (h3 : n * cols ≤ sQ.length)
    (hb : ∀ b ∈ bs, b.length % cols = 0) (ht : (bs.map List.length).sum = n * cols) :
    ∃ d t x, hadView fP fQ sQ n cols bs 0 = .ok (d, t, x) ∧
      ∃! bs' : List (List Ot), bs'.map (List.map fun o => (o.m0, o.m1)) = bs.map (List.map fun o => (o.m0, o.m1)) ∧
        ∃ x', hadView fP' fQ sQ n cols bs' 0 = .ok (d, t, x') ∧ x'.map Prod.snd = x.map Prod.snd := by
  obtain ⟨x, e⟩ := hadView_ok hc h1 h2 h3 bs 0 hb (Nat.zero_le n) (by omega)
  simp only [Nat.zero_mul, Nat.zero_add] at e
  refine ⟨_, _, x, e, ?_⟩
  obtain ⟨bs', ⟨p1, p2⟩, pu⟩ := batches_unique (f := fun o : Ot => (o.m0, o.m1)) (g := fun k o => o.c ^^ bitOf fP k)
    (g' := fun k o => o.c ^^ bitOf fP' k)
    (fun k o => by simp only [fun (o : Ot) (z : Bool) => Bool.xor_comm o.c z]; exact choice_unique o _ _) bs
  have all : ∀ b2 : List (List Ot), b2.map (List.map fun o => (o.m0, o.m1)) = bs.map (List.map fun o => (o.m0, o.m1)) →
      ∃ x', hadView fP' fQ sQ n cols b2 0 = .ok
        (b2.flatten.mapIdx (fun j o => o.c ^^ bitOf fP' j),
         b2.flatten.mapIdx (fun j o => (hadReply o (o.c ^^ bitOf fP' j) (bitOf fQ j) (sQ.getD j 0)).1), x') := by
    intro b2 q1
    obtain ⟨x', e'⟩ := hadView_ok hc h1' h2 h3 b2 0 (mods q1 hb) (Nat.zero_le n) (by rw [shape_sum q1]; omega)
    simp only [Nat.zero_mul, Nat.zero_add] at e'
    exact ⟨x', e'⟩
  refine ⟨bs', ⟨p1, ?_⟩, ?_⟩
  · have q := (map_flatten_eq.1 p1).2
    obtain ⟨x', e2⟩ := all bs' p1
    rw [p2, mapIdx_eq (g := fun j o => (hadReply o (o.c ^^ bitOf fP j) (bitOf fQ j) (sQ.getD j 0)).1)
        (g' := fun j o => (hadReply o (o.c ^^ bitOf fP' j) (bitOf fQ j) (sQ.getD j 0)).1) q
        (fun k h1 h2 h => by
          have := mapIdx_get p2 h1 h2
          simp only [hadReply, msg_eq h, this])] at e2
    exact ⟨x', e2, hadView_snd bs bs' 0 p1 e e2⟩
  · rintro b2 ⟨q1, x', q2, -⟩
    obtain ⟨x2, e2⟩ := all b2 q1
    rw [e2] at q2
    simp only [Except.ok.injEq, Prod.mk.injEq] at q2
    exact pu b2 ⟨q1, q2.1⟩

/-- C84, inner products, the view of the receiver of the OTs: whatever other bits `fQ'` and numbers `sQ'` the other party has, exactly one choice
of the messages it did not choose shows it the same, and gives it the same sums. -/
theorem C84_inner_values {fP fQ fQ' : List Byte} {sQ sQ' : List (BitVec 32)} {cols n : Nat} {bs : List (List Ot)} (hc : 0 < cols)
    (h1 : n * cols ≤ 8 * fP.length) (h2 : n * cols ≤ 8 * fQ.length) (h2' : n * cols ≤ 8 * fQ'.length)
    (h3 : n * cols ≤ sQ.length) (h3' : n * cols ≤ sQ'.length)
    (hb : ∀ b ∈ bs, b.length % cols = 0) (ht : (bs.map List.length).sum = n * cols) :
    ∃ d t x, hadView fP fQ sQ n cols bs 0 = .ok (d, t, x) ∧
      ∃! bs' : List (List Ot), bs'.map (List.map fun o => (o.c, o.got)) = bs.map (List.map fun o => (o.c, o.got)) ∧
        ∃ x', hadView fP fQ' sQ' n cols bs' 0 = .ok (d, t, x') ∧ x'.map Prod.fst = x.map Prod.fst := by
  obtain ⟨x, e⟩ := hadView_ok hc h1 h2 h3 bs 0 hb (Nat.zero_le n) (by omega)
  simp only [Nat.zero_mul, Nat.zero_add] at e
  refine ⟨_, _, x, e, ?_⟩
  have upd : ∀ (o : Ot) (a f : Bool) (s : BitVec 32), (hadReply o (o.c ^^ a) f s).1 =
      o.msg (a ^^ o.c) - o.msg (!(a ^^ o.c)) + (word (!f) * s - word f * s) := by
    intro o a f s
    simp only [hadReply, Bool.xor_comm o.c a]
    ring
  obtain ⟨bs', ⟨p1, p2⟩, pu⟩ := batches_unique (f := fun o : Ot => (o.c, o.got))
    (g := fun j o => (hadReply o (o.c ^^ bitOf fP j) (bitOf fQ j) (sQ.getD j 0)).1)
    (g' := fun j o => (hadReply o (o.c ^^ bitOf fP j) (bitOf fQ' j) (sQ'.getD j 0)).1)
    (fun k o => by simp only [upd]; exact other_unique o _ _ _) bs
  have all : ∀ b2 : List (List Ot), b2.map (List.map fun o => (o.c, o.got)) = bs.map (List.map fun o => (o.c, o.got)) →
      ∃ x', hadView fP fQ' sQ' n cols b2 0 = .ok
        (b2.flatten.mapIdx (fun j o => o.c ^^ bitOf fP j),
         b2.flatten.mapIdx (fun j o => (hadReply o (o.c ^^ bitOf fP j) (bitOf fQ' j) (sQ'.getD j 0)).1), x') := by
    intro b2 q1
    obtain ⟨x', e'⟩ := hadView_ok hc h1 h2' h3' b2 0 (mods q1 hb) (Nat.zero_le n) (by rw [shape_sum q1]; omega)
    simp only [Nat.zero_mul, Nat.zero_add] at e'
    exact ⟨x', e'⟩
  refine ⟨bs', ⟨p1, ?_⟩, ?_⟩
  · have q := (map_flatten_eq.1 p1).2
    obtain ⟨x', e2⟩ := all bs' p1
    rw [p2, mapIdx_eq (g := fun j o => o.c ^^ bitOf fP j) (g' := fun j o => o.c ^^ bitOf fP j) q
        (fun k h1 h2 h => by simp only [Prod.mk.injEq] at h; simp only [h.1])] at e2
    exact ⟨x', e2, hadView_fst bs bs' 0 p1 e e2⟩
  · rintro b2 ⟨q1, x', q2, -⟩
    obtain ⟨x2, e2⟩ := all b2 q1
    rw [e2] at q2
    simp only [Except.ok.injEq, Prod.mk.injEq] at q2
    exact pu b2 ⟨q1, q2.2.1⟩

/-- Six rows of three columns, in batches of two, three and one row. -/
def exBatches3 : List (List Ot) := [(List.range 6).map exOt, (List.range' 6 9).map exOt, (List.range' 15 3).map exOt]

example : ∃ d t x, hadView [0x5a, 0xc3, 1] [0x0f, 0x71, 2] ((List.range 18).map (BitVec.ofNat 32)) 6 3 exBatches3 0 = .ok (d, t, x) ∧
    ∃! bs' : List (List Ot), bs'.map (List.map fun o => (o.m0, o.m1)) = exBatches3.map (List.map fun o => (o.m0, o.m1)) ∧
      ∃ x', hadView [0, 0xff, 3] [0x0f, 0x71, 2] ((List.range 18).map (BitVec.ofNat 32)) 6 3 bs' 0 = .ok (d, t, x') ∧
        x'.map Prod.snd = x.map Prod.snd :=
  C84_inner_bits (by decide) (by decide) (by decide) (by decide) (by decide) (by decide) (by decide)

example : ∃ d t x, hadView [0x5a, 0xc3, 1] [0x0f, 0x71, 2] ((List.range 18).map (BitVec.ofNat 32)) 6 3 exBatches3 0 = .ok (d, t, x) ∧
    ∃! bs' : List (List Ot), bs'.map (List.map fun o => (o.c, o.got)) = exBatches3.map (List.map fun o => (o.c, o.got)) ∧
      ∃ x', hadView [0x5a, 0xc3, 1] [0xf1, 0x17, 0] (List.replicate 18 77) 6 3 bs' 0 = .ok (d, t, x') ∧
        x'.map Prod.fst = x.map Prod.fst :=
  C84_inner_values (by decide) (by decide) (by decide) (by decide) (by decide) (by decide) (by decide) (by decide)

end Radix
end SecJoin
