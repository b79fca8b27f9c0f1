import Verif.Sort.PreproRun
import Mathlib.Data.Nat.Sqrt
/-!
Theorems of C75.
-/
namespace SecJoin
namespace Prepro

/-! ### Specification -/

/-- A party has ended every call, without an error, and no task of it is left. -/
def Party.Ended (p : Party) : Prop := p.code = [] ∧ p.failed = none ∧ ∀ t ∈ p.tasks, t = .done

def Sys.Ended (s : Sys) : Prop := s.a.Ended ∧ s.b.Ended

/-- Nobody can make a step. -/
def Still (s : Sys) : Prop := ∀ w, step w s = none

/-- How many entries of a schedule make a step. -/
def effective : List Who → Sys → Nat
  | [], _ => 0
  | w :: t, s => match step w s with
    | none => effective t s
    | some s' => effective t s' + 1

/-- The state after the first `n` entries of an infinite schedule. -/
def after (sch : Nat → Who) (s : Sys) (n : Nat) : Sys := run ((List.range n).map sch) s

/-- Everybody comes again and again. -/
def Fair (sch : Nat → Who) : Prop := ∀ w n, ∃ m, n ≤ m ∧ sch m = w

/-- Every fair schedule ends, no schedule makes more than a fixed number of steps, and where nobody can make a step everything has ended. -/
def AlwaysEnds (s : Sys) : Prop :=
  (∀ sch, Fair sch → ∃ n, (after sch s n).Ended) ∧ (∃ most, ∀ sched, effective sched s ≤ most) ∧ ∀ sched, Still (run sched s) → (run sched s).Ended

/-- A round is prepared only when fewer than `lead` rounds beyond the ranked ones were, and used only after it was prepared. -/
def LogGood (lead : Nat) (l : List Ev) : Prop :=
  (∀ x i y, l = x ++ .began i :: y → i < lead + rankedIn x) ∧ ∀ x i y, l = x ++ .used i :: y → .made i ∈ x

/-- What a sort of `ll` rounds does, in its order. -/
def sortEvents (ll : Nat) : List Ev := .ranked 0 :: (List.range (ll - 1)).flatMap fun i => [.used i, .ranked (i + 1), .composed i]

/-! ### From the invariant -/

theorem run_append : ∀ (x y : List Who) (s : Sys), run (x ++ y) s = run y (run x s)
  | [], _, _ => rfl
  | w :: x, y, s => by rw [List.cons_append, run, run, run_append x y]

theorem after_succ (sch : Nat → Who) (s : Sys) (n : Nat) : after sch s (n + 1) = (step (sch n) (after sch s n)).getD (after sch s n) := by
  rw [after, after, List.range_succ, List.map_append, run_append]
  rfl

theorem effective_le {ll la lb : Nat} {prog : List Ins} (oa : OkFrom ll la [] prog) (ob : OkFrom ll lb [] prog) : ∀ (sched : List Who) {s : Sys},
    SInv ll la lb prog s → effective sched s ≤ s.mu
  | [], _, _ => Nat.zero_le _
  | w :: t, s, h => by
    rw [effective]
    cases hw : step w s with
    | none => exact effective_le oa ob t h
    | some s' =>
      obtain ⟨h1, h2⟩ := h.step oa ob hw
      have := effective_le oa ob t h1
      simp only
      omega

theorem fair_still {ll la lb : Nat} {prog : List Ins} (oa : OkFrom ll la [] prog) (ob : OkFrom ll lb [] prog) {s : Sys} (h : SInv ll la lb prog s)
    {sch : Nat → Who} (hf : Fair sch) : ∃ n, Still (after sch s n) := by
  have inv : ∀ n, SInv ll la lb prog (after sch s n) := fun n => h.run oa ob _
  have key : ∀ k n, (after sch s n).mu ≤ k → ∃ m, Still (after sch s m) := by
    intro k
    induction k using Nat.strongRecOn with
    | ind k ih =>
      intro n hn
      by_cases hs : ∃ m, n ≤ m ∧ (after sch s m).mu < (after sch s n).mu
      · obtain ⟨m, -, hlt⟩ := hs
        exact ih (after sch s m).mu (by omega) m (Nat.le_refl _)
      · have const : ∀ d, after sch s (n + d) = after sch s n := by
          intro d
          induction d with
          | zero => rfl
          | succ d ihd =>
            rw [← Nat.add_assoc, after_succ]
            cases hw : step (sch (n + d)) (after sch s (n + d)) with
            | none => exact ihd
            | some s' =>
              exfalso
              have h1 := ((inv (n + d)).step oa ob hw).2
              refine hs ⟨n + d + 1, by omega, ?_⟩
              rw [after_succ, hw, ← ihd]
              exact h1
        refine ⟨n, fun w => ?_⟩
        obtain ⟨m, hm, rfl⟩ := hf w n
        cases hw : step (sch m) (after sch s n) with
        | none => rfl
        | some s' =>
          exfalso
          obtain ⟨d, rfl⟩ := Nat.exists_eq_add_of_le hm
          have hw' : step (sch (n + d)) (after sch s (n + d)) = some s' := by rw [const d]; exact hw
          have h1 := ((inv (n + d)).step oa ob hw').2
          refine hs ⟨n + d + 1, by omega, ?_⟩
          rw [after_succ, hw', ← const d]
          exact h1
  exact key _ 0 (Nat.le_refl _)

theorem PInv.ended {ll lead : Nat} {prog : List Ins} {p : Party} (h : PInv ll lead prog prog p) (hc : p.code = []) (hj : .join ∈ prog ∨ .clear ∈ prog) :
    p.Ended := by
  refine ⟨hc, h.ok, fun t ht => ?_⟩
  by_cases hcl : .clear ∈ prog
  · rw [(h.outC hcl).1] at ht
    cases ht
  · exact h.joined (hj.resolve_right hcl) hcl t ht

theorem alwaysEnds {ll la lb : Nat} {calls : List Call} (oa : OkFrom ll la [] (compile false 0 calls)) (ob : OkFrom ll lb [] (compile false 0 calls))
    (hj : .join ∈ compile false 0 calls ∨ .clear ∈ compile false 0 calls) : AlwaysEnds (start calls la lb) := by
  have h0 : SInv ll la lb (compile false 0 calls) (start calls la lb) := SInv.start calls
  have still : ∀ sched, Still (run sched (start calls la lb)) → (run sched (start calls la lb)).Ended := by
    intro sched hs
    obtain ⟨ha, hb, ca, cb⟩ := (h0.run oa ob sched).stuck oa ob hs
    exact ⟨ha.ended ca hj, hb.ended cb hj⟩
  refine ⟨fun sch hf => ?_, ⟨_, fun sched => effective_le oa ob sched h0⟩, still⟩
  obtain ⟨n, hn⟩ := fair_still oa ob h0 hf
  exact ⟨n, still _ hn⟩

theorem logGood {lead : Nat} {l : List Ev} (h : Each (LogOk lead) l) : LogGood lead l :=
  ⟨fun x i y e => h x (.began i) y e, fun x i y e => h x (.used i) y e⟩

theorem logsGood {ll la lb : Nat} {calls : List Call} (oa : OkFrom ll la [] (compile false 0 calls)) (ob : OkFrom ll lb [] (compile false 0 calls))
    (sched : List Who) : LogGood la (run sched (start calls la lb)).a.log ∧ LogGood lb (run sched (start calls la lb)).b.log := by
  obtain ⟨⟨_, ha⟩, _, hb⟩ := (SInv.start (ll := ll) (la := la) (lb := lb) calls).run oa ob sched
  exact ⟨logGood ha.log, logGood hb.log⟩

theorem mainLogs {ll la lb : Nat} {calls : List Call} (oa : OkFrom ll la [] (compile false 0 calls)) (ob : OkFrom ll lb [] (compile false 0 calls))
    {sched : List Who} (he : (run sched (start calls la lb)).Ended) :
    (run sched (start calls la lb)).a.log.filter Ev.isMain = (compile false 0 calls).filterMap Ins.ev ∧
    (run sched (start calls la lb)).b.log.filter Ev.isMain = (compile false 0 calls).filterMap Ins.ev := by
  obtain ⟨⟨pa, ha⟩, pb, hb⟩ := (SInv.start (ll := ll) (la := la) (lb := lb) calls).run oa ob sched
  have ea := ha.split
  have eb := hb.split
  rw [he.1.1, List.append_nil] at ea
  rw [he.2.1, List.append_nil] at eb
  exact ⟨by rw [ha.main, ea], by rw [hb.main, eb]⟩

theorem iters_ev : ∀ (n i : Nat), (iters (i + 1) n).filterMap Ins.ev =
    (List.range n).flatMap fun j => [.used (i + j), .ranked (i + j + 1), .composed (i + j)]
  | 0, _ => rfl
  | n + 1, i => by
    rw [iters, List.filterMap_append, iters_ev n (i + 1), List.range_succ_eq_map, List.flatMap_cons, List.flatMap_map]
    simp only [Nat.add_sub_cancel, Nat.add_zero, Nat.succ_eq_add_one]
    congr 1
    congr 1
    funext j
    rw [show i + 1 + j = i + (j + 1) by omega]

/-! ### The programs -/

theorem own_ok {ll : Nat} (lead : Nat) (hl : 0 < ll) : OkFrom ll lead [] (compile false 0 [.init ll, .sort false]) := by
  have e : compile false 0 [.init ll, .sort false] = [.init ll, .spawn, .send, .recv (.ranked 0), .setLead, .release] ++ (iters 1 (ll - 1) ++ [.join, .clear]) := by
    simp [compile, sortCode, Nat.pos_iff_ne_zero.1 hl]
  have h1 : At 1 ([.init ll, .spawn, .send, .recv (.ranked 0), .setLead, .release] : List Ins) := by
    constructor <;> first | rfl | simp
  rw [e, okFrom_append]
  refine ⟨by simp [OkFrom, Cond, sends, recvs, rels, Ins.ev, rankedIn, Ev.isRanked, Ev.isMain], ?_⟩
  obtain ⟨k1, k2⟩ := iters_ok (lead := lead) (ll := ll) (ll - 1) 1 _ h1 (by omega) (by omega)
  rw [List.nil_append, okFrom_append]
  refine ⟨k1, ⟨k2.clear, k2.spawn, Or.inr ⟨k2.lead, by rw [k2.rel]; omega⟩⟩, ⟨?_, ?_, ?_⟩, trivial⟩
  · simpa using k2.clear
  · exact List.mem_append_right _ List.mem_cons_self
  · exact List.mem_append_left _ k2.spawn

theorem back_ok {ll : Nat} (lead : Nat) (hl : 0 < ll) : OkFrom ll lead [] (compile false 0 [.init ll, .background, .sort false, .awaitPre]) := by
  have e : compile false 0 [.init ll, .background, .sort false, .awaitPre] =
      [.init ll, .spawn, .send, .recv (.ranked 0), .setLead, .release] ++ (iters 1 (ll - 1) ++ [.join]) := by
    simp [compile, sortCode, Nat.pos_iff_ne_zero.1 hl]
  have h1 : At 1 ([.init ll, .spawn, .send, .recv (.ranked 0), .setLead, .release] : List Ins) := by
    constructor <;> first | rfl | simp
  rw [e, okFrom_append]
  refine ⟨by simp [OkFrom, Cond, sends, recvs, rels, Ins.ev, rankedIn, Ev.isRanked, Ev.isMain], ?_⟩
  obtain ⟨k1, k2⟩ := iters_ok (lead := lead) (ll := ll) (ll - 1) 1 _ h1 (by omega) (by omega)
  rw [List.nil_append, okFrom_append]
  exact ⟨k1, ⟨k2.clear, k2.spawn, Or.inr ⟨k2.lead, by rw [k2.rel]; omega⟩⟩, trivial⟩

theorem mock_ok {ll lead : Nat} (hl : ll ≤ lead) : OkFrom ll lead [] (compile false 0 [.init ll, .background, .sort true, .awaitPre]) := by
  simp [compile, OkFrom, Cond, sends, recvs, rels, Ins.ev, Ev.isMain, hl, Ev.isRanked]

theorem pre_ok {ll lead : Nat} (h0 : 0 < ll) (hl : ll ≤ lead) : OkFrom ll lead [] (compile false 0 [.init ll, .pre, .sort false]) := by
  have e : compile false 0 [.init ll, .pre, .sort false] = [.init ll, .spawn, .join, .send, .recv (.ranked 0), .setLead, .release] ++ iters 1 (ll - 1) := by
    simp [compile, sortCode, Nat.pos_iff_ne_zero.1 h0]
  have h1 : At 1 ([.init ll, .spawn, .join, .send, .recv (.ranked 0), .setLead, .release] : List Ins) := by
    constructor <;> first | rfl | simp
  rw [e, okFrom_append]
  refine ⟨by simp [OkFrom, Cond, sends, recvs, rels, Ins.ev, rankedIn, Ev.isRanked, Ev.isMain, hl], ?_⟩
  exact (iters_ok (lead := lead) (ll := ll) (ll - 1) 1 _ h1 (by omega) (by omega)).1

/-- The ways in which the library sorts: a sort that prepares itself, and one whose preparation was started before and is awaited afterwards
(`OmJoin.cpp` 451, 514-523, `GroupBy.cpp` 298, 365-371). -/
inductive Usual (ll : Nat) : List Call → Prop where
  | own : Usual ll [.init ll, .sort false]
  | background : Usual ll [.init ll, .background, .sort false, .awaitPre]

theorem Usual.ok {ll lead : Nat} {calls : List Call} (h : Usual ll calls) (hl : 0 < ll) : OkFrom ll lead [] (compile false 0 calls) := by
  cases h
  · exact own_ok lead hl
  · exact back_ok lead hl

theorem Usual.events {ll : Nat} {calls : List Call} (h : Usual ll calls) (hl : 0 < ll) : (compile false 0 calls).filterMap Ins.ev = sortEvents ll := by
  have e := iters_ev (ll - 1) 0
  simp only [Nat.zero_add] at e
  have hn := Nat.pos_iff_ne_zero.1 hl
  cases h <;> simp [compile, sortCode, hn, List.filterMap_append, e, sortEvents, Ins.ev, List.filterMap_cons]

/-! ### Theorems -/

/-- **C75**: a sort of `ll` rounds that is used in one of the usual ways ends under every fair schedule of the main protocols and of the tasks of the
rounds of both parties, whatever the leads of the two parties; it never gets stuck before it has ended. -/
theorem C75_ends {ll : Nat} {calls : List Call} (hu : Usual ll calls) (hl : 0 < ll) (la lb : Nat) : AlwaysEnds (start calls la lb) := by
  refine alwaysEnds (hu.ok hl) (hu.ok hl) ?_
  cases hu
  · right; simp [compile, sortCode, Nat.pos_iff_ne_zero.1 hl]
  · left; simp [compile, Nat.pos_iff_ne_zero.1 hl]

/-- **C75**: at every moment of every schedule, each party has begun to prepare round `i` only when `i` was less than its lead plus the number of the
rounds it had ranked, and has used the permutation of a round only after it was made. -/
theorem C75_lead {ll : Nat} {calls : List Call} (hu : Usual ll calls) (hl : 0 < ll) (la lb : Nat) (sched : List Who) :
    LogGood la (run sched (start calls la lb)).a.log ∧ LogGood lb (run sched (start calls la lb)).b.log :=
  logsGood (hu.ok hl) (hu.ok hl) sched

/-- **C75**: when the sort has ended, each party has ranked round 0 and then, for every further round in its order, used the permutation of the round
before, ranked the round and composed. -/
theorem C75_order {ll : Nat} {calls : List Call} (hu : Usual ll calls) (hl : 0 < ll) (la lb : Nat) (sched : List Who)
    (he : (run sched (start calls la lb)).Ended) : (run sched (start calls la lb)).a.log.filter Ev.isMain = sortEvents ll ∧
      (run sched (start calls la lb)).b.log.filter Ev.isMain = sortEvents ll := by
  have := mainLogs (ll := ll) (hu.ok hl) (hu.ok hl) he
  rw [hu.events hl] at this
  exact this

/-- **C75**: when the sort has ended, each party has begun and made the preparation of every round. -/
theorem C75_all {ll : Nat} {calls : List Call} (hu : Usual ll calls) (hl : 0 < ll) (la lb : Nat) (sched : List Who)
    (he : (run sched (start calls la lb)).Ended) {i : Nat} (hi : i < ll) :
    .began i ∈ (run sched (start calls la lb)).a.log ∧ .made i ∈ (run sched (start calls la lb)).a.log ∧
    .began i ∈ (run sched (start calls la lb)).b.log ∧ .made i ∈ (run sched (start calls la lb)).b.log := by
  obtain ⟨⟨pa, ha⟩, pb, hb⟩ := (SInv.start (ll := ll) (la := la) (lb := lb) calls).run (hu.ok hl) (hu.ok hl) sched
  have all : ∀ {lead : Nat} {pre : List Ins} {p : Party}, PInv ll lead (compile false 0 calls) pre p → p.Ended → .began i ∈ p.log ∧ .made i ∈ p.log := by
    intro lead pre p h he
    have e := h.split
    rw [he.1, List.append_nil] at e
    subst e
    by_cases hc : .clear ∈ compile false 0 calls
    · exact (h.outC hc).2.2 i hi
    · have hn : compile false 0 calls ≠ [] := by cases hu <;> simp [compile]
      have hlt : i < p.tasks.length := by rw [h.lenT hn hc]; exact hi
      have : p.tasks[i]? = some .done := by rw [List.getElem?_eq_getElem hlt, he.2.2 _ (List.getElem_mem hlt)]
      exact ⟨h.begun i (Or.inr this), h.made i this⟩
  have k1 := all ha he.1
  have k2 := all hb he.2
  exact ⟨k1.1, k1.2, k2⟩

/-- **C75**: the preparation does run ahead. Once a party has ranked its first round, a round `i` of which `i + 1` is less than the lead plus the number
of ranked rounds has begun or can begin now, whatever its other tasks and the other party do. -/
theorem C75_ahead {ll : Nat} {calls : List Call} (hu : Usual ll calls) (hl : 0 < ll) (la lb : Nat) (sched : List Who) {i : Nat} (hi : i < ll) :
    (0 < rankedIn (run sched (start calls la lb)).a.log → i + 1 < la + rankedIn (run sched (start calls la lb)).a.log →
      .began i ∈ (run sched (start calls la lb)).a.log ∨ (step (.task false i) (run sched (start calls la lb))).isSome) ∧
    (0 < rankedIn (run sched (start calls la lb)).b.log → i + 1 < lb + rankedIn (run sched (start calls la lb)).b.log →
      .began i ∈ (run sched (start calls la lb)).b.log ∨ (step (.task true i) (run sched (start calls la lb))).isSome) := by
  have key : ∀ {lead : Nat} {prog pre : List Ins} {p q : Party}, PInv ll lead prog pre p → 0 < rankedIn p.log → i + 1 < lead + rankedIn p.log →
      .began i ∈ p.log ∨ (Party.task q p i).isSome := by
    intro lead prog pre p q h h0 h1
    have hr : rankedIn p.log = rankedIn (pre.filterMap Ins.ev) := by rw [← rankedIn_main, h.main]
    rw [hr] at h0 h1
    have hs := h.stat.rankS h0
    have := h.stat.rank1
    by_cases hc : .clear ∈ pre
    · exact Or.inl ((h.outC hc).2.2 i hi).1
    · have rdy : Rdy lead pre i := by
        refine ⟨hs, ?_⟩
        by_cases hsl : .setLead ∈ pre
        · exact Or.inr ⟨hsl, by omega⟩
        · have := h.stat.rel0 hsl
          left; omega
      cases hq : Party.task q p i with
      | some p' => exact Or.inr rfl
      | none => exact Or.inl (h.begun i (h.rdy rdy hi hc hq))
  obtain ⟨⟨pa, ha⟩, pb, hb⟩ := (SInv.start (ll := ll) (la := la) (lb := lb) calls).run (hu.ok hl) (hu.ok hl) sched
  refine ⟨fun h0 h1 => ?_, fun h0 h1 => ?_⟩
  · rw [step, Option.isSome_map]; exact key ha h0 h1
  · rw [step, Option.isSome_map]; exact key hb h0 h1

/-- **C75**: the permutation of a round (but the last, for which none is made) is made at a party only after the other one has begun the round too, and
the main protocols never differ by more than one interactive part. -/
theorem C75_together {ll : Nat} {calls : List Call} (hu : Usual ll calls) (hl : 0 < ll) (la lb : Nat) (sched : List Who) :
    (∀ i, i + 1 < ll → .made i ∈ (run sched (start calls la lb)).a.log → .began i ∈ (run sched (start calls la lb)).b.log) ∧
    (∀ i, i + 1 < ll → .made i ∈ (run sched (start calls la lb)).b.log → .began i ∈ (run sched (start calls la lb)).a.log) ∧
    ((run sched (start calls la lb)).a.log.filter Ev.isMain).length ≤ ((run sched (start calls la lb)).b.log.filter Ev.isMain).length + 1 ∧
    ((run sched (start calls la lb)).b.log.filter Ev.isMain).length ≤ ((run sched (start calls la lb)).a.log.filter Ev.isMain).length + 1 := by
  have h0 := SInv.start (ll := ll) (la := la) (lb := lb) calls
  obtain ⟨c1, c2⟩ := cross_run (hu.ok hl) (hu.ok hl) sched h0 (cross_start ll la lb calls)
  obtain ⟨⟨pa, ha⟩, pb, hb⟩ := h0.run (hu.ok hl) (hu.ok hl) sched
  have len : ∀ {lead : Nat} {prog pre : List Ins} {p : Party}, PInv ll lead prog pre p → (p.log.filter Ev.isMain).length = p.got ∧ p.sent ≤ p.got + 1 := by
    intro lead prog pre p h
    have := h.stat.talk
    exact ⟨by rw [h.main, h.got]; rfl, by rw [h.sent, h.got]; exact this⟩
  have la' := len ha
  have lb' := len hb
  have := c1.2
  have := c2.2
  exact ⟨fun i hi hm => hb.outB i (c1.1 i hi hm), fun i hi hm => ha.outB i (c2.1 i hi hm), by omega, by omega⟩

/-- **C75**: with a lead of at least the number of rounds the preparation may also be awaited before the sort, and a mock sort may follow it. -/
theorem C75_early {ll : Nat} (hl : 0 < ll) {la lb : Nat} (ha : ll ≤ la) (hb : ll ≤ lb) :
    (∀ sched, Still (run sched (start [.init ll, .pre, .sort false] la lb)) → (run sched (start [.init ll, .pre, .sort false] la lb)).Ended) ∧
    AlwaysEnds (start [.init ll, .pre, .sort false] la lb) ∧ AlwaysEnds (start [.init ll, .background, .sort true, .awaitPre] la lb) := by
  have h1 : AlwaysEnds (start [.init ll, .pre, .sort false] la lb) := alwaysEnds (pre_ok hl ha) (pre_ok hl hb) (Or.inl (by simp [compile]))
  exact ⟨h1.2.2, h1, alwaysEnds (mock_ok ha) (mock_ok hb) (Or.inl (by simp [compile]))⟩

/-! ### Calls that do not end -/

/-- A property of one party that its own steps keep, whatever the other party does. -/
def Kept (P : Party → Prop) : Prop := (∀ p q p', P p → Party.main q p = some p' → P p') ∧ ∀ p q i p', P p → Party.task q p i = some p' → P p'

theorem Kept.step {P : Party → Prop} (k : Kept P) {s s' : Sys} {w : Who} (e : step w s = some s') : (P s.a → P s'.a) ∧ (P s.b → P s'.b) := by
  rcases w with ⟨_ | _⟩ | ⟨_ | _, i⟩ <;> obtain ⟨p', hp, rfl⟩ := Option.map_eq_some_iff.1 e
  · exact ⟨fun h => k.1 _ _ _ h hp, id⟩
  · exact ⟨id, fun h => k.1 _ _ _ h hp⟩
  · exact ⟨fun h => k.2 _ _ _ _ h hp, id⟩
  · exact ⟨id, fun h => k.2 _ _ _ _ h hp⟩

theorem Kept.run {P : Party → Prop} (k : Kept P) : ∀ (sched : List Who) (s : Sys), (P s.a → P (Prepro.run sched s).a) ∧ (P s.b → P (Prepro.run sched s).b)
  | [], _ => ⟨id, id⟩
  | w :: t, s => by
    rw [Prepro.run]
    cases hw : Prepro.step w s with
    | none => exact k.run t s
    | some s' =>
      obtain ⟨h1, h2⟩ := k.step hw
      obtain ⟨h3, h4⟩ := k.run t s'
      exact ⟨h3 ∘ h1, h4 ∘ h2⟩

/-- Nothing in `x` sets an event or starts a task anew. -/
def Quiet (x : List Ins) : Prop := ∀ b ∈ x, b = .send ∨ ∃ e, b = .recv e

/-- Round `i` waits, and nobody lets it go before `join`. -/
def Held (n lead i : Nat) (p : Party) : Prop := p.lead = lead ∧ ∃ x y, Quiet x ∧
  (p.code = .init n :: .spawn :: x ++ .join :: y ∨ (p.code = .spawn :: x ++ .join :: y ∧ p.rel.length = n ∧ p.tasks = List.replicate n .idle) ∨
    (p.code = x ++ .join :: y ∧ p.rel[i]? = some false ∧ p.tasks[i]? = some .waiting))

theorem held_kept {n lead i : Nat} (hi : i < n) (hl : lead ≤ i) : Kept (Held n lead i) := by
  refine ⟨fun p q p' h e => ?_, fun p q j p' h e => ?_⟩
  · obtain ⟨hlead, x, y, hx, h | ⟨h, h1, h2⟩ | ⟨h, h1, h2⟩⟩ := h
    · rw [Party.main, h] at e
      cases e
      exact ⟨hlead, x, y, hx, Or.inr (Or.inl ⟨rfl, by simp, rfl⟩)⟩
    · rw [Party.main, h] at e
      cases e
      refine ⟨hlead, x, y, hx, Or.inr (Or.inr ⟨rfl, ?_, ?_⟩)⟩
      · simp only [List.getElem?_map, List.getElem?_range (by omega : i < p.rel.length), Option.map_some, hlead]
        rw [decide_eq_false (by omega)]
      · simp [h2, hi]
    · cases x with
      | nil =>
        rw [Party.main, h] at e
        simp only [List.nil_append] at e
        split at e
        · rename_i hd
          have := List.all_eq_true.1 hd _ (List.mem_of_getElem? h2)
          cases this
        · cases e
      | cons b x =>
        have hx' : Quiet x := fun c hc => hx c (List.mem_cons_of_mem _ hc)
        rw [Party.main, h] at e
        rcases hx b List.mem_cons_self with rfl | ⟨ev, rfl⟩
        · cases e
          exact ⟨hlead, x, y, hx', Or.inr (Or.inr ⟨rfl, h1, h2⟩)⟩
        · simp only [List.cons_append] at e
          split at e
          · cases e
            exact ⟨hlead, x, y, hx', Or.inr (Or.inr ⟨rfl, h1, h2⟩)⟩
          · cases e
  · have keep : ∀ {u : Task}, p.tasks[i]? = some .waiting → j ≠ i → (p.tasks.set j u)[i]? = some .waiting :=
      fun h2 hij => by rw [List.getElem?_set_ne hij]; exact h2
    have sp : p.tasks = List.replicate n .idle → False := by
      intro h2
      unfold Party.task at e
      split at e
      · rename_i ht
        rw [h2] at ht
        exact absurd (List.eq_of_mem_replicate (List.mem_of_getElem? ht)) (by decide)
      · rename_i ht
        rw [h2] at ht
        exact absurd (List.eq_of_mem_replicate (List.mem_of_getElem? ht)) (by decide)
      · cases e
    obtain ⟨hlead, x, y, hx, h | ⟨h, h1, h2⟩ | ⟨h, h1, h2⟩⟩ := h
    · refine ⟨?_, x, y, hx, Or.inl ?_⟩ <;>
      · unfold Party.task at e
        split at e
        · split at e
          · split at e <;> cases e <;> assumption
          · cases e
        · split at e
          · cases e; assumption
          · cases e
        · cases e
    · exact (sp h2).elim
    · have hij : j ≠ i := by
        rintro rfl
        rw [Party.task, h2] at e
        simp [h1] at e
      unfold Party.task at e
      split at e
      · split at e
        · split at e <;> cases e <;> exact ⟨hlead, x, y, hx, Or.inr (Or.inr ⟨h, h1, keep h2 hij⟩)⟩
        · cases e
      · split at e
        · cases e; exact ⟨hlead, x, y, hx, Or.inr (Or.inr ⟨h, h1, keep h2 hij⟩)⟩
        · cases e
      · cases e

theorem Held.not_ended {n lead i : Nat} {p : Party} (h : Held n lead i p) : ¬ p.Ended := by
  rintro ⟨hc, -, -⟩
  obtain ⟨-, x, y, -, h | ⟨h, -, -⟩ | ⟨h, -, -⟩⟩ := h <;> simp [hc] at h

/-- **C75** is false of a sort whose preparation is awaited first, and of a mock sort during which a preparation was started: when a party's lead is
less than the number of rounds, no schedule ends. (`GroupBy.cpp` 363-371 makes the second sequence of calls when subroutines are mocked.) -/
theorem C75_false {ll : Nat} {la lb : Nat} (h : la < ll ∨ lb < ll) (sched : List Who) :
    ¬ (run sched (start [.init ll, .pre, .sort false] la lb)).Ended ∧ ¬ (run sched (start [.init ll, .background, .sort true, .awaitPre] la lb)).Ended := by
  have h1 : ∀ lead, Held ll lead lead (.start [.init ll, .pre, .sort false] lead) := by
    intro lead
    exact ⟨rfl, [], _, fun b hb => (nomatch hb), Or.inl rfl⟩
  have h2 : ∀ lead, Held ll lead lead (.start [.init ll, .background, .sort true, .awaitPre] lead) := by
    intro lead
    refine ⟨rfl, [.send, .recv .mocked], [], ?_, Or.inl rfl⟩
    intro b hb
    simp only [List.mem_cons, List.not_mem_nil, or_false] at hb
    rcases hb with rfl | rfl
    · exact Or.inl rfl
    · exact Or.inr ⟨_, rfl⟩
  rcases h with h | h
  · exact ⟨fun e => Held.not_ended (((held_kept h (Nat.le_refl _)).run sched _).1 (h1 la)) e.1,
      fun e => Held.not_ended (((held_kept h (Nat.le_refl _)).run sched _).1 (h2 la)) e.1⟩
  · exact ⟨fun e => Held.not_ended (((held_kept h (Nat.le_refl _)).run sched _).2 (h1 lb)) e.2,
      fun e => Held.not_ended (((held_kept h (Nat.le_refl _)).run sched _).2 (h2 lb)) e.2⟩

/-- A second sort of an object that was initialised again: no task is ever started. -/
def Unstarted (n : Nat) (y : List Ins) (p : Party) : Prop :=
  (∃ x, (∀ e, .stop e ∉ x) ∧ p.code = x ++ .init n :: .send :: .recv (.ranked 0) :: .setLead :: .release :: .wait 0 :: y) ∨
  (∃ x, (∀ b ∈ x, b = .send ∨ (∃ e, b = .recv e) ∨ b = .setLead ∨ b = .release) ∧ p.code = x ++ .wait 0 :: y ∧ p.tasks = List.replicate n .idle) ∨
  (p.code = [] ∧ p.failed ≠ none)

theorem unstarted_kept (n : Nat) (y : List Ins) : Kept (Unstarted n y) := by
  refine ⟨fun p q p' h e => ?_, fun p q j p' h e => ?_⟩
  · obtain ⟨x, hx, h⟩ | ⟨x, hx, h, h2⟩ | ⟨h, h2⟩ := h
    · cases x with
      | nil =>
        rw [Party.main, h] at e
        cases e
        refine Or.inr <| Or.inl ⟨[.send, .recv (.ranked 0), .setLead, .release], ?_, rfl, rfl⟩
        simp
      | cons b x =>
        have hx' : ∀ e, .stop e ∉ x := fun e he => hx e (List.mem_cons_of_mem _ he)
        rw [Party.main, h] at e
        cases b with
        | stop er => exact absurd List.mem_cons_self (hx er)
        | clear =>
          simp only [List.cons_append] at e
          split at e <;> cases e
          · exact Or.inl ⟨x, hx', rfl⟩
          · exact Or.inr (Or.inr ⟨rfl, by simp⟩)
        | _ =>
          refine Or.inl ⟨x, hx', ?_⟩
          simp only [List.cons_append] at e
          first
            | (cases e; rfl)
            | (split at e <;> first | (cases e; done) | (cases e; rfl))
    · cases x with
      | nil =>
        rw [Party.main, h] at e
        simp only [List.nil_append] at e
        split at e
        · rename_i hd
          rw [h2] at hd
          exact absurd (List.eq_of_mem_replicate (List.mem_of_getElem? hd)) (by decide)
        · cases e
      | cons b x =>
        have hx' : ∀ b ∈ x, b = .send ∨ (∃ e, b = .recv e) ∨ b = .setLead ∨ b = .release := fun b hb => hx b (List.mem_cons_of_mem _ hb)
        refine Or.inr <| Or.inl ⟨x, hx', ?_⟩
        rw [Party.main, h] at e
        rcases hx b List.mem_cons_self with rfl | ⟨ev, rfl⟩ | rfl | rfl
        · cases e; exact ⟨rfl, h2⟩
        · simp only [List.cons_append] at e
          split at e
          · cases e; exact ⟨rfl, h2⟩
          · cases e
        · cases e; exact ⟨rfl, h2⟩
        · simp only [List.cons_append] at e
          split at e <;> cases e <;> exact ⟨rfl, h2⟩
    · rw [Party.main, h] at e
      cases e
  · obtain ⟨x, hx, h⟩ | ⟨x, hx, h, h2⟩ | ⟨h, h2⟩ := h
    · refine Or.inl ⟨x, hx, ?_⟩
      unfold Party.task at e
      split at e
      · split at e
        · split at e <;> cases e <;> exact h
        · cases e
      · split at e
        · cases e; exact h
        · cases e
      · cases e
    · exfalso
      unfold Party.task at e
      split at e
      · rename_i ht
        rw [h2] at ht
        exact absurd (List.eq_of_mem_replicate (List.mem_of_getElem? ht)) (by decide)
      · rename_i ht
        rw [h2] at ht
        exact absurd (List.eq_of_mem_replicate (List.mem_of_getElem? ht)) (by decide)
      · cases e
    · refine Or.inr <| Or.inr ?_
      unfold Party.task at e
      split at e
      · split at e
        · split at e <;> cases e <;> exact ⟨h, h2⟩
        · cases e
      · split at e
        · cases e; exact ⟨h, h2⟩
        · cases e
      · cases e

theorem Unstarted.not_ended {n : Nat} {y : List Ins} {p : Party} (h : Unstarted n y p) : ¬ p.Ended := by
  rintro ⟨hc, hf, -⟩
  obtain ⟨x, -, h⟩ | ⟨x, -, h, -⟩ | ⟨-, h⟩ := h
  · simp [hc] at h
  · simp [hc] at h
  · exact h hf

theorem stop_iters (e : Err) : ∀ (n i : Nat), .stop e ∉ iters i n
  | 0, _ => by simp [iters]
  | n + 1, i => by
    have := stop_iters e n (i + 1)
    simp [iters, this]

theorem clear_iters : ∀ (n i : Nat), .clear ∉ iters i n
  | 0, _ => by simp [iters]
  | n + 1, i => by
    have := clear_iters n (i + 1)
    simp [iters, this]

/-- **C75** is false of an object that is initialised again: `mPrePermStarted` stays set, so a second sort of at least two rounds does not prepare
itself and no schedule ends. -/
theorem C75_again_false {ll ll2 : Nat} (h1 : 0 < ll) (h2 : 2 ≤ ll2) (la lb : Nat) (sched : List Who) :
    ¬ (run sched (start [.init ll, .sort false, .init ll2, .sort false] la lb)).Ended := by
  obtain ⟨n, rfl⟩ : ∃ n, ll2 = n + 2 := ⟨ll2 - 2, by omega⟩
  have h : Unstarted (n + 2) ([.send, .recv (.used 0), .send, .recv (.ranked 1), .release, .send, .recv (.composed 0)] ++ iters 2 n)
      (.start [.init ll, .sort false, .init (n + 2), .sort false] la) := by
    refine Or.inl ⟨.init ll :: sortCode false ll, ?_, ?_⟩
    · intro e
      simp [sortCode, stop_iters]
    · simp [Party.start, compile, sortCode, Nat.pos_iff_ne_zero.1 h1, iters]
  exact fun e => Unstarted.not_ended (((unstarted_kept _ _).run sched _).1 h) e.1

/-- The calls up to a preparation that throws. -/
def Throws (p : Party) : Prop := (∃ x, p.code = x ++ [.stop .throw] ∧ (∀ e, .stop e ∉ x) ∧ .clear ∉ x) ∨ (p.code = [] ∧ p.failed = some .throw)

theorem throws_kept : Kept Throws := by
  refine ⟨fun p q p' h e => ?_, fun p q j p' h e => ?_⟩
  · obtain ⟨x, h, hx, hcl⟩ | ⟨h, h2⟩ := h
    · cases x with
      | nil =>
        rw [Party.main, h] at e
        cases e
        exact Or.inr ⟨rfl, rfl⟩
      | cons b x =>
        have hx' : ∀ e, .stop e ∉ x := fun e he => hx e (List.mem_cons_of_mem _ he)
        refine Or.inl ⟨x, ?_, hx', fun hm => hcl (List.mem_cons_of_mem _ hm)⟩
        rw [Party.main, h] at e
        cases b with
        | stop er => exact absurd List.mem_cons_self (hx er)
        | clear => exact absurd List.mem_cons_self hcl
        | _ =>
          simp only [List.cons_append] at e
          first
            | (cases e; rfl)
            | (split at e <;> first | (cases e; done) | (cases e; rfl))
    · rw [Party.main, h] at e
      cases e
  · unfold Party.task at e
    split at e
    · split at e
      · split at e <;> cases e <;> exact h
      · cases e
    · split at e
      · cases e; exact h
      · cases e
    · cases e

/-- **C75** is false of an object that is initialised again and whose preparation is started again, as a second join or group-by does: nobody ends
without an exception. -/
theorem C75_twice_false {ll ll2 : Nat} (h1 : 0 < ll) (la lb : Nat) (sched : List Who) :
    let s := run sched (start [.init ll, .background, .sort false, .awaitPre, .init ll2, .background] la lb)
    (s.a.code = [] → s.a.failed = some .throw) ∧ (s.b.code = [] → s.b.failed = some .throw) ∧ ¬ s.Ended := by
  have h : ∀ lead, Throws (.start [.init ll, .background, .sort false, .awaitPre, .init ll2, .background] lead) := by
    intro lead
    refine Or.inl ⟨.init ll :: .spawn :: (sortCode true ll ++ [.join, .init ll2]), ?_, ?_, ?_⟩
    · simp [Party.start, compile, Nat.pos_iff_ne_zero.1 h1]
    · intro e
      simp [sortCode, stop_iters]
    · simp [sortCode, clear_iters]
  have fin : ∀ {p : Party}, Throws p → p.code = [] → p.failed = some .throw := by
    rintro p (⟨x, hp, -⟩ | ⟨-, hp⟩) hc
    · simp [hc] at hp
    · exact hp
  have ka := (throws_kept.run sched (start [.init ll, .background, .sort false, .awaitPre, .init ll2, .background] la lb)).1 (h la)
  have kb := (throws_kept.run sched (start [.init ll, .background, .sort false, .awaitPre, .init ll2, .background] la lb)).2 (h lb)
  refine ⟨fin ka, fin kb, fun e => ?_⟩
  have := fin ka e.1.1
  rw [e.1.2.1] at this
  cases this

/-! ### Instances -/

/-- A round-robin schedule of `n` turns over `ll` rounds. -/
def robin (ll n : Nat) : List Who := (List.replicate n ([.main false, .main true] ++ (List.range ll).flatMap fun i => [.task false i, .task true i])).flatten

/-- Three rounds with leads 1 and 2 end. -/
example : let s := run (robin 3 30) (start [.init 3, .sort false] 1 2)
    s.a.code = [] ∧ s.b.code = [] ∧ s.b.failed = none ∧ .began 2 ∈ s.a.log := by decide +kernel
example : Usual 7 [.init 7, .background, .sort false, .awaitPre] := .background

/-- There are fair schedules. -/
theorem fair_exists : ∃ sch, Fair sch := by
  let dec : Nat → Who := fun k => match k % 4 with
    | 0 => .main false
    | 1 => .main true
    | 2 => .task false (k / 4)
    | _ => .task true (k / 4)
  have surj : ∀ w, ∃ k, dec k = w := by
    rintro (⟨_ | _⟩ | ⟨_ | _, i⟩)
    · exact ⟨0, rfl⟩
    · exact ⟨1, rfl⟩
    · exact ⟨4 * i + 2, by simp only [dec]; rw [show (4 * i + 2) % 4 = 2 by omega, show (4 * i + 2) / 4 = i by omega]; rfl⟩
    · exact ⟨4 * i + 3, by simp only [dec]; rw [show (4 * i + 3) % 4 = 3 by omega, show (4 * i + 3) / 4 = i by omega]; rfl⟩
  refine ⟨fun m => dec (m - (Nat.sqrt m) ^ 2), fun w n => ?_⟩
  obtain ⟨k, hk⟩ := surj w
  have h1 : (n + k) ≤ (n + k) ^ 2 := Nat.le_self_pow (by decide) _
  refine ⟨(n + k) ^ 2 + k, by omega, ?_⟩
  simp only [Nat.sqrt_add_eq' (n + k) (by omega : k ≤ (n + k) + (n + k)), Nat.add_sub_cancel_left]
  exact hk

end Prepro
end SecJoin
