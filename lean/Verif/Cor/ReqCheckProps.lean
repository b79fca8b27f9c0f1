import Verif.Cor.ReqCheck
import Verif.Cor.RequestProps
/-!
Theorems of C76.
-/
namespace SecJoin
namespace Cor

/-! ### Specification -/

/-- Two lists of requests match: same order, same types, same sizes up to blocks of 128, and one party sends where the other receives (there are no
sender and receiver of OLEs). -/
def MatchReq (x y : List (Kind × Bool × Nat)) : Prop :=
  List.Forall₂ (fun p q => p.1 = q.1 ∧ (p.2.2 + 127) / 128 = (q.2.2 + 127) / 128 ∧ (p.1 ≠ .ole → p.2.1 ≠ q.2.1)) x y

/-- Nobody can make a step. -/
def DbgStill (s : Dbg × Dbg) : Prop := ∀ w, dbgStep w s = none

/-- The state after the first `n` entries of an infinite schedule. -/
def dbgAfter (sch : Nat → Bool) (s : Dbg × Dbg) (n : Nat) : Dbg × Dbg := dbgRun ((List.range n).map sch) s

/-- Where a party that made `x` ends when the other one made `y`. -/
def verdict (x y : List (Kind × Bool × Nat)) (ok : Prop) [Decidable ok] : Where :=
  if x = [] then .passed
  else if y = [] then .wait
  else if y.length + 1 < x.length then .wait
  else if ok then .passed
  else .threw

/-! ### Lists -/

theorem flip_flip (l : List Req) : flipRoles (flipRoles l) = l := by
  rw [flipRoles, flipRoles, List.map_map]
  conv => rhs; rw [← List.map_id l]
  apply List.map_congr_left
  intro r _
  simp

theorem record_flip {g h : Gen} (hp : g.party ≠ h.party) : ∀ (x y : List (Kind × Bool × Nat)),
    record g x = flipRoles (record h y) ↔ MatchReq x y
  | [], [] => by simp [record, flipRoles, MatchReq]
  | [], _ :: _ => by simp [record, flipRoles, MatchReq]
  | _ :: _, [] => by simp [record, flipRoles, MatchReq]
  | (k, s, n) :: x, (k', s', n') :: y => by
    have ih := record_flip hp x y
    simp only [record, flipRoles] at ih
    simp only [record, flipRoles, MatchReq, List.map_cons, List.cons.injEq, List.forall₂_cons, ih, Req.mk.injEq]
    refine and_congr_left fun _ => ?_
    have hr : roundUp n = roundUp n' ↔ (n + 127) / 128 = (n' + 127) / 128 := by unfold roundUp; omega
    rw [hr]
    constructor
    · rintro ⟨rfl, h1, h2⟩
      refine ⟨rfl, h2, fun hk => ?_⟩
      simp only [roleOf, if_neg hk] at h1
      rw [h1]
      cases s' <;> decide
    · rintro ⟨rfl, h1, h2⟩
      refine ⟨rfl, ?_, h1⟩
      unfold roleOf
      split
      · cases hg : g.party <;> cases hh : h.party <;> simp_all
      · rename_i hk
        have := h2 hk
        cases s <;> cases s' <;> simp_all

/-! ### Invariant -/

/-- The states of a party with list `a` whose peer has list `b`. -/
inductive Form (a b : List Req) : Dbg → Prop where
  | fresh : Form a b ⟨a, [], .head 0, 0, 0⟩
  | waiting : a ≠ [] → Form a b ⟨a, [], .wait, 1, 0⟩
  | got : a ≠ [] → b ≠ [] → Form a b ⟨a, flipRoles b, .head (b.length + 1), 1, 1⟩
  | nothing : a = [] → Form a b ⟨a, [], .passed, 0, 0⟩
  | again : a ≠ [] → b ≠ [] → b.length + 1 < a.length → Form a b ⟨a, flipRoles b, .wait, 2, 1⟩
  | decided : a ≠ [] → b ≠ [] → ¬ b.length + 1 < a.length → Form a b ⟨a, flipRoles b, if a = flipRoles b then .passed else .threw, 1, 1⟩

def Dbg.mu (p : Dbg) : Nat := match p.pos, p.sent with
  | .head _, 0 => 4
  | .wait, 1 => 3
  | .head _, _ => 2
  | _, _ => 0

theorem form_step {a b : List Req} {p q p' : Dbg} (hp : Form a b p) (hq : Form b a q) (e : Dbg.step q p = some p') : Form a b p' ∧ p'.mu < p.mu := by
  have qm : q.mine = b := by cases hq <;> rfl
  cases hp with
  | fresh =>
    simp only [Dbg.step] at e
    split at e
    · rename_i h
      cases e
      exact ⟨.waiting (by rintro rfl; cases h), by simp [Dbg.mu]⟩
    · rename_i h
      cases e
      have : a = [] := List.length_eq_zero_iff.1 (by omega)
      subst this
      exact ⟨.nothing rfl, by simp [Dbg.mu]⟩
  | waiting ha =>
    simp only [Dbg.step] at e
    split at e
    · rename_i h
      cases e
      rw [qm]
      refine ⟨.got ha ?_, by simp [Dbg.mu]⟩
      rintro rfl
      cases hq <;> first | (cases h; done) | contradiction
    · cases e
  | got ha hb =>
    simp only [Dbg.step] at e
    split at e
    · rename_i h
      cases e
      exact ⟨.again ha hb h, by simp [Dbg.mu]⟩
    · rename_i h
      cases e
      refine ⟨.decided ha hb h, ?_⟩
      by_cases hh : a = flipRoles b
      · simp only [if_pos hh]; simp [Dbg.mu]
      · simp only [if_neg hh]; simp [Dbg.mu]
  | nothing ha => cases e
  | again ha hb hl =>
    simp only [Dbg.step] at e
    split at e
    · rename_i h
      exfalso
      cases hq with
      | again _ _ hl' => omega
      | _ => simp at h
    · cases e
  | decided ha hb hl =>
    by_cases hh : a = flipRoles b
    · simp only [if_pos hh, Dbg.step] at e; cases e
    · simp only [if_neg hh, Dbg.step] at e; cases e

/-- Both parties. -/
def Both (a b : List Req) (s : Dbg × Dbg) : Prop := Form a b s.1 ∧ Form b a s.2

def dbgMu (s : Dbg × Dbg) : Nat := s.1.mu + s.2.mu

theorem both_step {a b : List Req} {s s' : Dbg × Dbg} {w : Bool} (h : Both a b s) (e : dbgStep w s = some s') : Both a b s' ∧ dbgMu s' < dbgMu s := by
  unfold dbgStep at e
  split at e <;> obtain ⟨p', hp, rfl⟩ := Option.map_eq_some_iff.1 e
  · obtain ⟨h1, h2⟩ := form_step h.2 h.1 hp
    exact ⟨⟨h.1, h1⟩, by simp only [dbgMu]; omega⟩
  · obtain ⟨h1, h2⟩ := form_step h.1 h.2 hp
    exact ⟨⟨h1, h.2⟩, by simp only [dbgMu]; omega⟩

theorem both_run {a b : List Req} : ∀ (sched : List Bool) {s : Dbg × Dbg}, Both a b s → Both a b (dbgRun sched s)
  | [], _, h => h
  | w :: t, s, h => by
    rw [dbgRun]
    cases hw : dbgStep w s with
    | none => exact both_run t h
    | some s' => exact both_run t (both_step h hw).1

theorem both_start (a b : List Req) : Both a b (Dbg.start a, Dbg.start b) := ⟨.fresh, .fresh⟩

theorem form_still {a b : List Req} {p q : Dbg} (hp : Form a b p) (hq : Form b a q) (e : Dbg.step q p = none) (e' : Dbg.step p q = none) :
    p.pos = if a = [] then .passed else if b = [] then .wait else if b.length + 1 < a.length then .wait
      else if a = flipRoles b then .passed else .threw := by
  cases hp with
  | fresh => simp only [Dbg.step] at e; split at e <;> cases e
  | waiting ha =>
    rw [if_neg ha]
    cases hq with
    | fresh => simp only [Dbg.step] at e'; split at e' <;> cases e'
    | nothing hb => rw [if_pos hb]
    | _ => simp [Dbg.step] at e
  | got ha hb => simp only [Dbg.step] at e; split at e <;> cases e
  | nothing ha => rw [if_pos ha]
  | again ha hb hl => rw [if_neg ha, if_neg hb, if_pos hl]
  | decided ha hb hl => rw [if_neg ha, if_neg hb, if_neg hl]

theorem dbgAfter_succ (sch : Nat → Bool) (s : Dbg × Dbg) (n : Nat) :
    dbgAfter sch s (n + 1) = (dbgStep (sch n) (dbgAfter sch s n)).getD (dbgAfter sch s n) := by
  have app : ∀ (x y : List Bool) (s : Dbg × Dbg), dbgRun (x ++ y) s = dbgRun y (dbgRun x s) := by
    intro x
    induction x with
    | nil => exact fun _ _ => rfl
    | cons w x ih => exact fun y s => by rw [List.cons_append, dbgRun, dbgRun, ih]
  rw [dbgAfter, dbgAfter, List.range_succ, List.map_append, app]
  rfl

theorem dbg_fair {a b : List Req} {s : Dbg × Dbg} (h : Both a b s) {sch : Nat → Bool} (hf : ∀ w n, ∃ m, n ≤ m ∧ sch m = w) :
    ∃ n, DbgStill (dbgAfter sch s n) := by
  have inv : ∀ n, Both a b (dbgAfter sch s n) := fun n => both_run _ h
  have key : ∀ k n, dbgMu (dbgAfter sch s n) ≤ k → ∃ m, DbgStill (dbgAfter sch s m) := by
    intro k
    induction k using Nat.strongRecOn with
    | ind k ih =>
      intro n hn
      by_cases hs : ∃ m, n ≤ m ∧ dbgMu (dbgAfter sch s m) < dbgMu (dbgAfter sch s n)
      · obtain ⟨m, -, hlt⟩ := hs
        exact ih _ (by omega) m (Nat.le_refl _)
      · have const : ∀ d, dbgAfter sch s (n + d) = dbgAfter sch s n := by
          intro d
          induction d with
          | zero => rfl
          | succ d ihd =>
            rw [← Nat.add_assoc, dbgAfter_succ]
            cases hw : dbgStep (sch (n + d)) (dbgAfter sch s (n + d)) with
            | none => exact ihd
            | some s' =>
              exfalso
              have h1 := (both_step (inv (n + d)) hw).2
              refine hs ⟨n + d + 1, by omega, ?_⟩
              rw [dbgAfter_succ, hw, ← ihd]
              exact h1
        refine ⟨n, fun w => ?_⟩
        obtain ⟨m, hm, rfl⟩ := hf w n
        cases hw : dbgStep (sch m) (dbgAfter sch s n) with
        | none => rfl
        | some s' =>
          exfalso
          obtain ⟨d, rfl⟩ := Nat.exists_eq_add_of_le hm
          have hw' : dbgStep (sch (n + d)) (dbgAfter sch s (n + d)) = some s' := by rw [const d]; exact hw
          have h1 := (both_step (inv (n + d)) hw').2
          refine hs ⟨n + d + 1, by omega, ?_⟩
          rw [dbgAfter_succ, hw', ← const d]
          exact h1
  exact key _ 0 (Nat.le_refl _)

/-! ### Theorems -/

section
variable {g h : Gen} (hp : g.party ≠ h.party) (x y : List (Kind × Bool × Nat))

/-- Both parties before the comparison. -/
def dbg0 (g h : Gen) (x y : List (Kind × Bool × Nat)) : Dbg × Dbg := (Dbg.start (record g x), Dbg.start (record h y))

theorem match_symm {x y : List (Kind × Bool × Nat)} (m : MatchReq x y) : MatchReq y x := by
  induction m with
  | nil => exact .nil
  | cons hd _ ih => exact .cons ⟨hd.1.symm, hd.2.1.symm, fun hk => Ne.symm (hd.2.2 (by rw [hd.1]; exact hk))⟩ ih

open Classical in
/-- **C76**: where the parties end, in full: under every fair schedule a state is reached in which nobody can make a step, and there each party's
verdict is determined by the two lists of requests. -/
theorem C76_verdict (hp : g.party ≠ h.party) :
    (∀ sch : Nat → Bool, (∀ w n, ∃ m, n ≤ m ∧ sch m = w) → ∃ n, DbgStill (dbgAfter sch (dbg0 g h x y) n)) ∧
    ∀ sched, DbgStill (dbgRun sched (dbg0 g h x y)) →
      (dbgRun sched (dbg0 g h x y)).1.pos = verdict x y (MatchReq x y) ∧ (dbgRun sched (dbg0 g h x y)).2.pos = verdict y x (MatchReq x y) := by
  refine ⟨fun sch hf => dbg_fair (both_start _ _) hf, fun sched hs => ?_⟩
  obtain ⟨h1, h2⟩ := both_run sched (both_start (record g x) (record h y))
  have e1 : Dbg.step (dbgRun sched (dbg0 g h x y)).2 (dbgRun sched (dbg0 g h x y)).1 = none := by
    have := hs false
    simpa [dbgStep] using this
  have e2 : Dbg.step (dbgRun sched (dbg0 g h x y)).1 (dbgRun sched (dbg0 g h x y)).2 = none := by
    have := hs true
    simpa [dbgStep] using this
  have v1 := form_still h1 h2 e1 e2
  have v2 := form_still h2 h1 e2 e1
  have nil : ∀ (g : Gen) (z : List (Kind × Bool × Nat)), record g z = [] ↔ z = [] := fun g z => by simp [record]
  have len : ∀ (g : Gen) (z : List (Kind × Bool × Nat)), (record g z).length = z.length := fun g z => by simp [record]
  have m2 : record h y = flipRoles (record g x) ↔ MatchReq x y := by
    rw [record_flip (Ne.symm hp)]
    exact ⟨match_symm, match_symm⟩
  simp only [nil, len, record_flip hp] at v1
  simp only [nil, len, m2] at v2
  refine ⟨?_, ?_⟩
  · rw [verdict]; exact v1
  · rw [verdict]; exact v2

/-- **C76**: when the requests match, both parties go on, and at no moment of any schedule has one of them thrown. -/
theorem C76_match (hp : g.party ≠ h.party) (m : MatchReq x y) (sched : List Bool) :
    (DbgStill (dbgRun sched (dbg0 g h x y)) → (dbgRun sched (dbg0 g h x y)).1.pos = .passed ∧ (dbgRun sched (dbg0 g h x y)).2.pos = .passed) ∧
    (dbgRun sched (dbg0 g h x y)).1.pos ≠ .threw ∧ (dbgRun sched (dbg0 g h x y)).2.pos ≠ .threw := by
  have hl : x.length = y.length := List.Forall₂.length_eq m
  have nil : x = [] ↔ y = [] := by rw [← List.length_eq_zero_iff, hl, List.length_eq_zero_iff]
  obtain ⟨h1, h2⟩ := both_run sched (both_start (record g x) (record h y))
  have m1 := (record_flip hp x y).2 m
  have m2 := (record_flip (Ne.symm hp) y x).2 (match_symm m)
  refine ⟨fun hs => ?_, ?_, ?_⟩
  · obtain ⟨v1, v2⟩ := (C76_verdict x y hp).2 sched hs
    rw [v1, v2]
    by_cases hx : x = []
    · rw [verdict, verdict, if_pos hx, if_pos (nil.1 hx)]
      exact ⟨rfl, rfl⟩
    · have hy : ¬ y = [] := fun c => hx (nil.2 c)
      simp only [verdict, if_neg hx, if_neg hy, if_neg (show ¬ y.length + 1 < x.length by omega), if_neg (show ¬ x.length + 1 < y.length by omega), if_pos m]
      exact ⟨trivial, trivial⟩
  · intro ht
    change (dbgRun sched (Dbg.start (record g x), Dbg.start (record h y))).1.pos = .threw at ht
    generalize (dbgRun sched (Dbg.start (record g x), Dbg.start (record h y))).1 = p at h1 ht
    cases h1 with
    | decided => simp only [if_pos m1] at ht; cases ht
    | _ => cases ht
  · intro ht
    change (dbgRun sched (Dbg.start (record g x), Dbg.start (record h y))).2.pos = .threw at ht
    generalize (dbgRun sched (Dbg.start (record g x), Dbg.start (record h y))).2 = p at h2 ht
    cases h2 with
    | decided => simp only [if_pos m2] at ht; cases ht
    | _ => cases ht

/-- **C76**, the part that holds: when both parties have made requests and these do not match, no party goes on, at any moment of any schedule; and
when moreover none has made two or more requests more than the other, both throw. -/
theorem C76_mismatch_partial (hp : g.party ≠ h.party) (hx : x ≠ []) (hy : y ≠ []) (m : ¬ MatchReq x y) (sched : List Bool) :
    ((dbgRun sched (dbg0 g h x y)).1.pos ≠ .passed ∧ (dbgRun sched (dbg0 g h x y)).2.pos ≠ .passed) ∧
    (x.length ≤ y.length + 1 → y.length ≤ x.length + 1 → DbgStill (dbgRun sched (dbg0 g h x y)) →
      (dbgRun sched (dbg0 g h x y)).1.pos = .threw ∧ (dbgRun sched (dbg0 g h x y)).2.pos = .threw) := by
  obtain ⟨h1, h2⟩ := both_run sched (both_start (record g x) (record h y))
  have m1 := mt (record_flip hp x y).1 m
  have m2 := mt (record_flip (Ne.symm hp) y x).1 fun c => m (match_symm c)
  have nx : record g x ≠ [] := by simpa [record] using hx
  have ny : record h y ≠ [] := by simpa [record] using hy
  refine ⟨⟨?_, ?_⟩, fun l1 l2 hs => ?_⟩
  · intro ht
    change (dbgRun sched (Dbg.start (record g x), Dbg.start (record h y))).1.pos = .passed at ht
    generalize (dbgRun sched (Dbg.start (record g x), Dbg.start (record h y))).1 = p at h1 ht
    cases h1 with
    | decided => simp only [if_neg m1] at ht; cases ht
    | nothing h0 => exact nx h0
    | _ => cases ht
  · intro ht
    change (dbgRun sched (Dbg.start (record g x), Dbg.start (record h y))).2.pos = .passed at ht
    generalize (dbgRun sched (Dbg.start (record g x), Dbg.start (record h y))).2 = p at h2 ht
    cases h2 with
    | decided => simp only [if_neg m2] at ht; cases ht
    | nothing h0 => exact ny h0
    | _ => cases ht
  · obtain ⟨v1, v2⟩ := (C76_verdict x y hp).2 sched hs
    rw [v1, v2]
    simp only [verdict, if_neg hx, if_neg hy, if_neg (show ¬ y.length + 1 < x.length by omega), if_neg (show ¬ x.length + 1 < y.length by omega), if_neg m]
    exact ⟨trivial, trivial⟩

/-- **C76** is false of a party that made no request: it goes on although the other one made some, which then waits for ever. -/
theorem C76_none_false (hp : g.party ≠ h.party) (hy : y ≠ []) (sched : List Bool) :
    ¬ MatchReq [] y ∧ (DbgStill (dbgRun sched (dbg0 g h [] y)) → (dbgRun sched (dbg0 g h [] y)).1.pos = .passed ∧
      (dbgRun sched (dbg0 g h [] y)).2.pos = .wait) := by
  refine ⟨fun m => hy (by cases m; rfl), fun hs => ?_⟩
  obtain ⟨v1, v2⟩ := (C76_verdict [] y hp).2 sched hs
  rw [v1, v2]
  unfold verdict
  rw [if_pos rfl, if_neg hy, if_pos rfl]
  exact ⟨rfl, rfl⟩

/-- **C76** is false of a party that made at least two requests more than the other one, which made some: it sends its list again and waits for ever
instead of throwing. -/
theorem C76_longer_false (hp : g.party ≠ h.party) (hy : y ≠ []) (hl : y.length + 2 ≤ x.length) (sched : List Bool) :
    ¬ MatchReq x y ∧ (DbgStill (dbgRun sched (dbg0 g h x y)) → (dbgRun sched (dbg0 g h x y)).1.pos = .wait ∧
      (dbgRun sched (dbg0 g h x y)).2.pos = .threw) := by
  have m : ¬ MatchReq x y := fun m => by have := List.Forall₂.length_eq m; omega
  have hx : x ≠ [] := by rintro rfl; simp at hl
  refine ⟨m, fun hs => ?_⟩
  obtain ⟨v1, v2⟩ := (C76_verdict x y hp).2 sched hs
  rw [v1, v2]
  simp only [verdict, if_neg hx, if_neg hy, if_pos (show y.length + 1 < x.length by omega), if_neg (show ¬ x.length + 1 < y.length by omega), if_neg m]
  exact ⟨trivial, trivial⟩

end

/-- **C76**: requests that match get the same pieces of the same batches at both parties (C40), so a comparison that both pass is enough for the
correlations to fit together. -/
theorem C76_pieces {nc nc' B : Nat} {g h : Gen} (h0 : Gen.new false nc B = .ok g) (h1 : Gen.new true nc' B = .ok h) (x y : List (Kind × Bool × Nat))
    (m : MatchReq x y) {pss : List (List Piece)} {g' : Gen} (e : requests g x = .ok (pss, g')) :
    ∃ h', requests h y = .ok (pss, h') ∧ h'.batches.length = g'.batches.length ∧
      ∀ b, (hb : b < g'.batches.length) → ∃ hb' : b < h'.batches.length, h'.batches[b].kind = g'.batches[b].kind ∧
        h'.batches[b].role = !g'.batches[b].role ∧ h'.batches[b].size = g'.batches[b].size := by
  have same : ∀ {x y : List (Kind × Bool × Nat)}, MatchReq x y → ∀ h : Gen, requests h y = requests h (x.map mirrorReq) := by
    intro x y m
    induction m with
    | nil => exact fun _ => rfl
    | @cons p q x y hd _ ih =>
      obtain ⟨k, s, n⟩ := p
      obtain ⟨k', s', n'⟩ := q
      obtain ⟨rfl, h2, h3⟩ := hd
      intro h
      simp only at h2 h3
      have e1 : request h k s' n' = request h k (!s) n := by
        unfold request
        have : roundUp n' = roundUp n := by unfold roundUp; omega
        rw [this]
        congr 1
        unfold roleOf
        split
        · rfl
        · rename_i hk
          have := h3 hk
          cases s <;> cases s' <;> simp_all
      rw [List.map_cons, mirrorReq, requests, requests, e1]
      cases request h k (!s) n with
      | error _ => rfl
      | ok r => simp only [ok_bind, ih]
  obtain ⟨h', r1, r2⟩ := C40_pieces h0 h1 x e
  exact ⟨h', by rw [same m]; exact r1, r2⟩

/-! ### Instances -/

example : MatchReq [(.ole, false, 300), (.ot, true, 128)] [(.ole, false, 384), (.ot, false, 1)] := by simp [MatchReq]
example : ¬ MatchReq [(.ot, true, 128)] [(.ot, true, 128)] := by simp [MatchReq]
/-- Both throw when both are senders. -/
example : let s := dbgRun [false, true, true, true, false, false] (dbg0 ⟨1024, false, fun _ _ => none, []⟩ ⟨1024, true, fun _ _ => none, []⟩
    [(.ot, true, 128)] [(.ot, true, 128)]
    ); s.1.pos = .threw ∧ s.2.pos = .threw := by decide +kernel

end Cor
end SecJoin
