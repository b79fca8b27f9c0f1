import Verif.Cor.LiveOrder
import Mathlib.Data.Nat.Pairing
/-!
# C78: two parties that use correlations and messages in a matching order always finish

If the steps of all coroutines of both parties can be put in one order in which every batch is started by both parties before it is
used, every message sent before it is received and every event raised before it is awaited (`Ord`), then both parties finish in
every fair execution, whatever the number of concurrent batches: neither the generators nor the laziness of the requests can
introduce a deadlock (`C78_fair`), and no state is reached in which nothing can move (`C78_no_deadlock`). The protocols of the
library are such (`C78_exchange`, `C78_gmw`, `C78_prf`), one after the other as well (`C78_sequence`), and starting requests ahead
does not matter (`C78_prepare`). False when one party aborts: the protocols wait forever (`C78_abort_false`).
-/
namespace SecJoin
namespace Live

/-- In every fair execution a state at or past any reachable one is reached. -/
theorem fair_past {P : Par} {f : Nat → Act} (hf : Fair f) (as : List Act) (ha : Calm as) (x : St) (hx : Inv P x) (n : Nat)
    (hl : Le x (run P (init P) ((List.range n).map f))) : ∃ m, n ≤ m ∧ Le (run P x as) (run P (init P) ((List.range m).map f)) := by
  have hinv : ∀ n, Inv P (run P (init P) ((List.range n).map f)) := fun n => inv_run (inv_init P) (by
    intro a ha p
    obtain ⟨i, -, rfl⟩ := List.mem_map.1 ha
    exact hf.1 i p)
  have hsucc : ∀ n, run P (init P) ((List.range (n + 1)).map f) = step P (run P (init P) ((List.range n).map f)) (f n) := by
    intro n
    rw [List.range_succ, List.map_append, run_append]
    rfl
  have hmono : ∀ n k, Le (run P (init P) ((List.range n).map f)) (run P (init P) ((List.range (n + k)).map f)) := by
    intro n k
    induction k with
    | zero => exact Le.refl _
    | succ k ih => rw [← Nat.add_assoc, hsucc]; exact ih.trans (le_step P _ _)
  induction as generalizing x n with
  | nil => exact ⟨n, Nat.le_refl n, hl⟩
  | cons a as ih =>
    have ha0 := ha a (by simp)
    obtain ⟨m, hm, hfm⟩ := hf.2 a ha0 n
    have hlm : Le x (run P (init P) ((List.range m).map f)) := by
      obtain ⟨k, rfl⟩ := Nat.exists_eq_add_of_le hm
      exact hl.trans (hmono n k)
    have hlm' : Le (step P x a) (run P (init P) ((List.range (m + 1)).map f)) := by
      rcases sim hx (hinv m) hlm ha0 with k | k
      · exact k.trans (hmono m 1)
      · rw [hsucc, hfm]; exact k
    obtain ⟨m', h1, h2⟩ := ih (fun z hz => ha z (by simp [hz])) (step P x a) (inv_step hx ha0) (m + 1) hlm'
    exact ⟨m', by omega, h2⟩

/-- **Both parties finish in every fair execution.** -/
theorem C78_fair (P : Par) (hc : 0 < P.nc) (L : List Ev) (hp : ∀ p t, P.prog p t = progOf L p t) (ho : Ord P.nb [] L)
    (f : Nat → Act) (hf : Fair f) : ∃ n, ∀ m, n ≤ m → Finished P (run P (init P) ((List.range m).map f)) := by
  obtain ⟨as, h1, h2⟩ := orderly hc hp ho
  obtain ⟨n, -, hn⟩ := fair_past hf as h1 (init P) (inv_init P) 0 (Le.refl _)
  refine ⟨n, fun m hm p t => Nat.le_trans (h2 p t) (Nat.le_trans (hn.pos p t) ?_)⟩
  obtain ⟨k, rfl⟩ := Nat.exists_eq_add_of_le hm
  rw [List.range_add, List.map_append, run_append]
  exact (le_run P _ _).pos p t

/-- **No deadlock**: from every state that is reached without abort both parties can still finish; and where no step has an effect,
both have finished. -/
theorem C78_no_deadlock (P : Par) (hc : 0 < P.nc) (L : List Ev) (hp : ∀ p t, P.prog p t = progOf L p t) (ho : Ord P.nb [] L)
    (as : List Act) (ha : Calm as) :
    (∃ bs, Calm bs ∧ Finished P (run P (run P (init P) as) bs)) ∧
      ((∀ a, (∀ p, a ≠ .abort p) → step P (run P (init P) as) a = run P (init P) as) → Finished P (run P (init P) as)) := by
  obtain ⟨ls, h1, h2⟩ := orderly hc hp ho
  obtain ⟨bs, h3, h4⟩ := sim_run (inv_init P) (inv_run (inv_init P) ha) (le_run P (init P) as) h1
  have hfin : Finished P (run P (run P (init P) as) bs) := fun p t => Nat.le_trans (h2 p t) (h4.pos p t)
  refine ⟨⟨bs, h3, hfin⟩, ?_⟩
  intro hstuck
  have : ∀ bs, Calm bs → run P (run P (init P) as) bs = run P (init P) as := by
    intro bs hb
    induction bs with
    | nil => rfl
    | cons a bs ih =>
      rw [run_cons, hstuck a (hb a (by simp))]
      exact ih fun z hz => hb z (by simp [hz])
  rw [this bs h3] at hfin
  exact hfin

/-- **The generators end as well** when all their batches are started. -/
theorem C78_generator (P : Par) (hc : 0 < P.nc) (L : List Ev) (hp : ∀ p t, P.prog p t = progOf L p t) (ho : Ord P.nb [] L)
    (hall : ∀ p, ∃ u c, (p, u, .start c) ∈ L ∧ P.nb ≤ c + 1) (f : Nat → Act) (hf : Fair f) :
    ∃ n, ∀ m, n ≤ m → Ended P (run P (init P) ((List.range m).map f)) := by
  obtain ⟨as, h1, h2, h3⟩ := orderly_gen hc hp ho hall
  obtain ⟨n, -, hn⟩ := fair_past hf as h1 (init P) (inv_init P) 0 (Le.refl _)
  refine ⟨n, fun m hm => ?_⟩
  have hle : Le (run P (init P) as) (run P (init P) ((List.range m).map f)) := by
    refine hn.trans ?_
    obtain ⟨k, rfl⟩ := Nat.exists_eq_add_of_le hm
    rw [List.range_add, List.map_append, run_append]
    exact le_run P _ _
  refine ⟨fun p t => Nat.le_trans (h2 p t) (hle.pos p t), fun p => ?_⟩
  have hi : Inv P (run P (init P) ((List.range m).map f)) := inv_run (inv_init P) (by
    intro a ha q
    obtain ⟨i, -, rfl⟩ := List.mem_map.1 ha
    exact hf.1 i q)
  have := hi.pc p
  have := hle.pc p
  rw [h3] at this
  omega

/-- **Requests can be started ahead** by either party, in the same or other coroutines. -/
theorem C78_prepare (nb : Nat) (L S : List Ev) (hS : ∀ x ∈ S, ∃ p t b, x = (p, t, .start b)) (ho : Ord nb [] L) : Ord nb [] (S ++ L) := by
  have h1 : ∀ ctx, Ord nb ctx S := by
    induction S with
    | nil => intro _; trivial
    | cons x S ih =>
      intro ctx
      obtain ⟨p, t, b, rfl⟩ := hS x (by simp)
      exact ⟨trivial, ih (fun y hy => hS y (by simp [hy])) _⟩
  have hc : ∀ o p t, (∀ b, o ≠ Op.start b) → S.count (p, t, o) = 0 := by
    intro o p t hn
    rw [List.count_eq_zero]
    intro hm
    obtain ⟨q, u, b, e⟩ := hS _ hm
    exact hn b (congrArg (·.2.2) e)
  have h2 : ∀ L ctx, Ord nb ctx L → Ord nb (S ++ ctx) L := by
    intro L
    induction L with
    | nil => intro _ _; trivial
    | cons x L ih =>
      intro ctx ⟨hj, hr⟩
      refine ⟨?_, by rw [List.append_assoc]; exact ih _ hr⟩
      obtain ⟨p, t, o⟩ := x
      cases o with
      | get b =>
        refine ⟨hj.1, fun q => ?_⟩
        obtain ⟨u, c, hm, hb⟩ := hj.2 q
        exact ⟨u, c, List.mem_append_right _ hm, hb⟩
      | recv =>
        simp only [Just] at hj ⊢
        rw [List.count_append, List.count_append, hc _ _ _ (by simp), hc _ _ _ (by simp)]
        omega
      | wait e =>
        obtain ⟨u, hu⟩ := hj
        exact ⟨u, List.mem_append_right _ hu⟩
      | _ => trivial
  refine ord_append.2 ⟨h1 [], ?_⟩
  rw [List.nil_append]
  have := h2 L [] ho
  rwa [List.append_nil] at this

/-- A protocol of both parties: coroutine `t` of party `p` runs `Q p t`, there is an order of the steps that can follow any other
protocol, and as many messages are received as sent. -/
def Proto (nb : Nat) (Q : Bool → Nat → List Op) : Prop :=
  (∃ L, Good nb L ∧ ∀ p t, Q p t = progOf L p t) ∧ ∀ p t, (Q p t).count .send = (Q (!p) t).count .recv

/-- **The exchanges** (conversions between moduli, injection of bits, reduction modulo two) are such protocols. -/
theorem C78_exchange (nb last : Nat) (bs : List Nat) (q : Bool) (h : ∀ b ∈ bs, b ≤ last ∧ b < nb) :
    Proto nb fun p t => if t ≠ 0 then [] else if p = q then exchRecv last bs else exchSend last bs :=
  ⟨⟨exchL 0 q last bs, exch_good q h, fun p t => (exch_prog 0 q last bs p t).symm⟩, fun p t => by
    by_cases ht : t = 0
    · cases p <;> cases q <;> simp [ht, exchRecv_count, exchSend_count]
    · simp [ht]⟩

/-- **The evaluation of circuits** is. -/
theorem C78_gmw (nb last : Nat) (rounds : List (List Nat × Nat)) (h : ∀ r ∈ rounds, ∀ b ∈ r.1, b ≤ last ∧ b < nb) :
    Proto nb fun _ t => if t ≠ 0 then [] else gmw last rounds :=
  ⟨⟨gmwL 0 last rounds, gmw_good h, fun p t => (gmw_prog 0 last rounds p t).symm⟩, fun p t => by
    by_cases ht : t = 0
    · simp [ht, gmw_count]
    · simp [ht]⟩

/-- **The PRF** with shared key and inputs, in two coroutines at a time, is. -/
theorem C78_prf (nb : Nat) (r : PrfReq) (h : r.ok nb) : Proto nb (prf r) :=
  ⟨⟨prfL r, prf_good h, fun p t => (prf_prog r p t).symm⟩, prf_count r⟩

/-- **One after the other** they are such a protocol. -/
theorem C78_sequence (nb : Nat) (Qs : List (Bool → Nat → List Op)) (h : ∀ Q ∈ Qs, Proto nb Q) :
    Proto nb fun p t => Qs.flatMap fun Q => Q p t := by
  induction Qs with
  | nil => exact ⟨⟨[], Good.nil nb, fun _ _ => rfl⟩, fun _ _ => rfl⟩
  | cons Q Qs ih =>
    obtain ⟨⟨A, hA, eA⟩, cA⟩ := h Q (by simp)
    obtain ⟨⟨B, hB, eB⟩, cB⟩ := ih fun R hR => h R (by simp [hR])
    refine ⟨⟨A ++ B, hA.append hB, fun p t => ?_⟩, fun p t => ?_⟩
    · rw [progOf_append, ← eA, ← eB]
      rfl
    · simp only [List.flatMap_cons, List.count_append]
      rw [cA, cB]

/-- The protocols `Q` with requests started ahead in a further coroutine `u`. -/
def withPre (nb nc : Nat) (mock : Bool) (Q : Bool → Nat → List Op) (u : Nat) (pre : Bool → List Nat) : Par :=
  ⟨nb, nc, mock, fun p t => if t = u then (pre p).map .start else Q p t⟩

/-- **Such protocols always finish**, with any requests started ahead in a further coroutine, and no message is left. -/
theorem C78_protocols (nb nc : Nat) (mock : Bool) (hc : 0 < nc) (Q : Bool → Nat → List Op) (hQ : Proto nb Q) (pre : Bool → List Nat)
    (u : Nat) (hu : ∀ p, Q p u = []) (f : Nat → Act) (hf : Fair f) :
    ∃ n, ∀ m, n ≤ m →
      let s := run (withPre nb nc mock Q u pre) (init (withPre nb nc mock Q u pre)) ((List.range m).map f)
      ∀ p t, (Q p t).length ≤ s.pos p t ∧ s.sent p t = s.rcvd (!p) t := by
  obtain ⟨⟨L, hL, eL⟩, hcnt⟩ := hQ
  have hpre : ∀ p q t, progOf ((pre q).map fun b => (q, u, Op.start b)) p t = if p = q ∧ t = u then (pre q).map .start else [] := by
    intro p q t
    by_cases h : p = q ∧ t = u
    · obtain ⟨rfl, rfl⟩ := h
      rw [if_pos ⟨rfl, rfl⟩]
      generalize pre p = l
      induction l with
      | nil => rfl
      | cons b l ih => rw [List.map_cons, List.map_cons, ← ih]; simp [progOf]
    · rw [if_neg h]
      have h' : ¬ (q = p ∧ u = t) := fun k => h ⟨k.1.symm, k.2.symm⟩
      simp [progOf, h']
  obtain ⟨n, hn⟩ := C78_fair (withPre nb nc mock Q u pre) hc
    (((pre false).map fun b => (false, u, Op.start b)) ++ ((pre true).map fun b => (true, u, Op.start b)) ++ L) (by
      intro p t
      rw [progOf_append, progOf_append, hpre, hpre, ← eL, withPre]
      by_cases ht : t = u
      · subst ht
        cases p <;> simp [hu]
      · simp [ht]) (C78_prepare nb L _ (by
      intro x hx
      rcases List.mem_append.1 hx with hx | hx <;> obtain ⟨b, -, rfl⟩ := List.mem_map.1 hx
      · exact ⟨_, _, _, rfl⟩
      · exact ⟨_, _, _, rfl⟩) hL.ord) f hf
  refine ⟨n, fun m hm => ?_⟩
  have hfin := hn m hm
  have hi : Inv (withPre nb nc mock Q u pre) (run (withPre nb nc mock Q u pre) (init (withPre nb nc mock Q u pre)) ((List.range m).map f)) :=
    inv_run (inv_init _) (by
      intro a ha q
      obtain ⟨i, -, rfl⟩ := List.mem_map.1 ha
      exact hf.1 i q)
  generalize run (withPre nb nc mock Q u pre) (init (withPre nb nc mock Q u pre)) ((List.range m).map f) = s at hfin hi
  intro s' p t
  refine ⟨?_, ?_⟩
  · by_cases ht : t = u
    · subst ht; rw [hu]; exact Nat.zero_le _
    · have := hfin p t
      simpa [withPre, ht] using this
  · show s.sent p t = s.rcvd (!p) t
    rw [hi.sent, hi.rcvd, done, done, List.take_of_length_le (hfin p t), List.take_of_length_le (hfin (!p) t)]
    by_cases ht : t = u
    · subst ht
      have : ∀ (l : List Nat) (o : Op), (∀ b, Op.start b ≠ o) → (l.map Op.start).count o = 0 := by
        intro l o ho
        rw [List.count_eq_zero]
        intro hm
        obtain ⟨b, -, e⟩ := List.mem_map.1 hm
        exact ho b e
      simp only [withPre, if_true]
      rw [this _ _ (by simp), this _ _ (by simp)]
    · simp only [withPre, if_neg ht]
      exact hcnt p t

/-- **Correlations that are made locally need no other party**: with steps of its own generator alone, all batches that a party has
started become ready. -/
theorem C78_mock_alone (P : Par) (hc : 0 < P.nc) (hm : P.mock = true) (as : List Act) (ha : Calm as) (p : Bool) (n : Nat) (hn : n ≤ P.nb)
    (hw : n ≤ (run P (init P) as).want p) :
    ∃ bs, (∀ a ∈ bs, a = .gen p ∨ ∃ b, a = .finish p b) ∧ ∀ b < n, (run P (run P (init P) as) bs).ready p b = true := by
  have hi := inv_run (inv_init P) ha
  generalize run P (init P) as = s at hi hw
  induction n with
  | zero => exact ⟨[], by simp, by simp⟩
  | succ n ih =>
    obtain ⟨bs, q1, r1⟩ := ih (by omega) (by omega)
    have qq : ∀ {cs : List Act}, (∀ a ∈ cs, a = .gen p ∨ ∃ b, a = .finish p b) → Quiet cs := fun h a ha =>
      (h a ha).imp (fun e => ⟨p, e⟩) (fun ⟨b, e⟩ => ⟨p, b, e⟩)
    have i1 := inv_run hi (qq q1).calm
    have w1 := (quiet_keeps (P := P) (s := s) (qq q1)).2
    obtain ⟨cs, q2, r2⟩ := gen_alone (n := n) hc (by omega) p _ (run P s bs) rfl
      (fun i h _ => by rw [w1]; omega) (fun b hb _ => r1 b hb) i1
    have i2 := inv_run i1 (qq fun a h => .inl (q2 a h)).calm
    have l2 := le_run P (run P s bs) cs
    refine ⟨bs ++ (cs ++ [.finish p n]), ?_, ?_⟩
    · intro a ha
      rcases List.mem_append.1 ha with ha | ha
      · exact q1 a ha
      · rcases List.mem_append.1 ha with ha | ha
        · exact .inl (q2 a ha)
        · exact .inr ⟨n, List.mem_singleton.1 ha⟩
    · intro b hb
      rw [run_append, run_append]
      show (step P (run P (run P s bs) cs) (.finish p n)).ready p b = true
      have lau : launched (run P (run P s bs) cs) p n = true := by
        simp only [launched, Bool.and_eq_true, decide_eq_true_eq, i2.cut]
        exact ⟨r2, by omega⟩
      simp only [step, stepFinish, lau, hm, Bool.true_or, Bool.and_self, if_true]
      by_cases e : b = n
      · subst e; simp
      · rw [upd2_ne _ _ (fun h => e h.2)]
        exact l2.ready p b (r1 b (by omega))

/-! ## Abort -/

/-- A batch is created only after it was started. -/
theorem started {P : Par} (as : List Act) (ha : Calm as) (p : Bool) (b : Nat) (hb : b < P.nb) :
    2 * b < (run P (init P) as).pc p → b < (run P (init P) as).want p := by
  induction as using List.reverseRecOn with
  | nil => intro h; exact absurd h (by simp [run, init])
  | append_singleton as a ih =>
    have hca : Calm as := fun z hz => ha z (by simp [hz])
    have ha0 := ha a (by simp)
    have ih := ih hca
    have i0 := inv_run (inv_init P) hca
    rw [run_append]
    show 2 * b < (step P _ a).pc p → b < (step P _ a).want p
    have i1 := inv_step i0 ha0
    have hw := want_le i0 i1 (le_step P _ a) p
    intro h
    generalize run P (init P) as = s at *
    by_cases h0 : 2 * b < s.pc p
    · have := ih h0; omega
    · cases a with
      | abort q => exact absurd rfl (ha0 q)
      | finish q c => simp only [step, stepFinish] at h; split at h <;> exact absurd h h0
      | op q t => simp only [step, op_pc] at h; exact absurd h h0
      | gen q =>
        simp only [step, stepGen] at h hw ⊢
        by_cases e : p = q
        · subst e
          split at h
          · split at h
            · rename_i h1 h2
              rw [if_pos h1, if_pos h2]
              simp only [upd_same] at h
              have hb' : s.pc p / 2 = b := by omega
              have := h2.2 (by omega)
              show b < s.want p
              omega
            · exact absurd h h0
          · split at h
            · simp only [upd_same] at h; omega
            · exact absurd h h0
        · split at h <;> split at h <;> first
            | exact absurd h h0
            | (simp only [upd_ne _ _ e] at h; exact absurd h h0)

/-- **Both parties must start a batch**: one that is ready was started by the party and, unless it is made locally, by the other one
too. So a protocol of which only one party asks for a correlation waits forever. -/
theorem C78_both_needed (P : Par) (as : List Act) (ha : Calm as) (p : Bool) (b : Nat)
    (hr : (run P (init P) as).ready p b = true) :
    b < P.nb ∧ b < (run P (init P) as).want p ∧ (P.mock = false → b < (run P (init P) as).want (!p)) := by
  have hi := inv_run (inv_init P) ha
  obtain ⟨h1, h2⟩ := hi.ready p b hr
  simp only [launched, Bool.and_eq_true, Bool.or_eq_true, decide_eq_true_eq, hi.cut] at h1 h2
  refine ⟨h1.2, started as ha p b h1.2 h1.1, fun hm => ?_⟩
  rw [hm] at h2
  exact started as ha (!p) b h1.2 (h2.resolve_left (by simp)).1

/-- **After an abort the protocols wait forever**: a batch that the party had not started when it aborted never becomes ready, for
it or for the other party (unless the other one makes its correlations locally), so a coroutine that needs it stays before that
step. -/
theorem C78_abort (P : Par) (as : List Act) (ha : Calm as) (p : Bool) (b : Nat) (hb : b < P.nb)
    (hw : (run P (init P) as).want p ≤ b) (q : Bool) (hq : q = p ∨ P.mock = false) (bs : List Act) :
    (run P (step P (run P (init P) as) (.abort p)) bs).ready q b = false := by
  have hi := inv_run (inv_init P) ha
  have hst := started as ha p b hb
  have hnl : launched (run P (init P) as) p b = false := by
    rw [Bool.eq_false_iff]
    intro h
    simp only [launched, Bool.and_eq_true, decide_eq_true_eq] at h
    have := hst h.1
    omega
  have hr : (run P (init P) as).ready q b = false := by
    rw [Bool.eq_false_iff]
    intro h
    obtain ⟨h1, h2⟩ := hi.ready q b h
    by_cases e : q = p
    · subst e; rw [hnl] at h1; cases h1
    · have hm : P.mock = false := hq.resolve_left e
      have e' : (!q) = p := by cases p <;> cases q <;> simp_all
      rw [hm, e', hnl] at h2
      cases h2
  generalize run P (init P) as = s at *
  have h0 : (step P s (.abort p)).ready q b = false ∧ (step P s (.abort p)).cut p ≤ b ∧ P.nb ≤ (step P s (.abort p)).want p := by
    simp only [step, stepAbort]
    rw [if_pos (by omega)]
    exact ⟨hr, by simp only [upd_same]; exact hw, by simp only [upd_same]; exact Nat.le_refl _⟩
  suffices h : ∀ (bs : List Act) (s : St), s.ready q b = false ∧ s.cut p ≤ b ∧ P.nb ≤ s.want p → (run P s bs).ready q b = false from
    h bs _ h0
  intro bs
  induction bs with
  | nil => intro s h; exact h.1
  | cons a bs ih =>
    intro s ⟨h1, h2, h3⟩
    rw [run_cons]
    apply ih
    have hl : launched s p b = false := by simp [launched]; omega
    cases a with
    | gen r => simp only [step, stepGen]; split <;> split <;> exact ⟨h1, h2, h3⟩
    | abort r =>
      simp only [step, stepAbort]
      split
      · rename_i hlt
        have e : p ≠ r := by rintro rfl; omega
        exact ⟨h1, by simp only [upd_ne _ _ e]; exact h2, by simp only [upd_ne _ _ e]; exact h3⟩
      · exact ⟨h1, h2, h3⟩
    | finish r c =>
      simp only [step, stepFinish]
      split
      · rename_i hc
        refine ⟨?_, h2, h3⟩
        by_cases e : q = r ∧ b = c
        · obtain ⟨rfl, rfl⟩ := e
          exfalso
          rw [Bool.and_eq_true] at hc
          by_cases e : q = p
          · subst e; rw [hl] at hc; cases hc.1
          · have hm : P.mock = false := hq.resolve_left e
            have e' : (!q) = p := by cases p <;> cases q <;> simp_all
            rw [hm, e', hl] at hc
            cases hc.2
        · simp only [upd2_ne _ _ e]; exact h1
      · exact ⟨h1, h2, h3⟩
    | op r t =>
      refine ⟨by simp only [step, op_ready]; exact h1, ?_, ?_⟩
      · have : (step P s (.op r t)).cut = s.cut := by
          simp only [step, stepOp]
          split <;> (try split) <;> rfl
        rw [this]; exact h2
      · simp only [step, stepOp]
        split
        · exact h3
        · by_cases e : p = r
          · subst e; simp only [upd_same]; omega
          · simp only [upd_ne _ _ e]; exact h3
        · split <;> exact h3
        · exact h3
        · split <;> exact h3
        · exact h3
        · split <;> exact h3

/-- **An exchange that one party aborts before it is started never ends** for either of them, though nobody reports a failure. -/
theorem C78_abort_false (nb nc last b : Nat) (bs : List Nat) (hb : b < nb) (p q : Bool) (as : List Act) :
    ¬ Finished ⟨nb, nc, false, fun r t => if t ≠ 0 then [] else if r = p then exchRecv last (b :: bs) else exchSend last (b :: bs)⟩
      (run ⟨nb, nc, false, fun r t => if t ≠ 0 then [] else if r = p then exchRecv last (b :: bs) else exchSend last (b :: bs)⟩
        (init ⟨nb, nc, false, fun r t => if t ≠ 0 then [] else if r = p then exchRecv last (b :: bs) else exchSend last (b :: bs)⟩)
        (.abort q :: as)) := by
  generalize hP : (⟨nb, nc, false, fun r t => if t ≠ 0 then [] else if r = p then exchRecv last (b :: bs) else exchSend last (b :: bs)⟩ : Par) = P
  have hnb : P.nb = nb := by rw [← hP]
  have hmock : P.mock = false := by rw [← hP]
  have hprog : (P.prog false 0)[1]? = some (.get b) ∧ 2 ≤ (P.prog false 0).length := by
    rw [← hP]
    cases p <;> simp [exchRecv, exchSend, getOps]
  have key : ∀ cs, (run P (step P (init P) (.abort q)) cs).pos false 0 ≤ 1 := by
    intro cs
    induction cs using List.reverseRecOn with
    | nil => simp only [run, List.foldl_nil, step, stepAbort]; split <;> simp [init]
    | append_singleton cs c ih =>
      have hr := C78_abort P [] (by simp [Calm]) q b (by omega) (by simp [run, init]) false (.inr hmock) cs
      simp only [run, List.foldl_nil] at hr
      rw [run_append]
      simp only [run] at ih ⊢
      generalize List.foldl (step P) (step P (init P) (.abort q)) cs = s at *
      simp only [List.foldl_cons, List.foldl_nil]
      cases c with
      | gen r => simp only [step, stepGen]; split <;> split <;> exact ih
      | finish r c => simp only [step, stepFinish]; split <;> exact ih
      | abort r => simp only [step, stepAbort]; split <;> exact ih
      | op r t =>
        by_cases e : false = r ∧ 0 = t
        · obtain ⟨rfl, rfl⟩ := e
          by_cases h1 : s.pos false 0 = 1
          · simp only [step, stepOp, h1, hprog.1, hr]
            simp [h1]
          · have := op_pos_le P s false 0
            simp only [step]; omega
        · simp only [step, op_pos_ne P s r t e]; exact ih
  intro h
  have h1 := h false 0
  rw [run_cons] at h1
  have := key as
  omega

/-! ## The hypotheses can be met -/

/-- A fair execution. -/
def fairRun (n : Nat) : Act :=
  let k := n.unpair.1
  if k % 6 = 0 then .gen false else if k % 6 = 1 then .gen true else if k % 6 = 2 then .finish false (k / 6)
  else if k % 6 = 3 then .finish true (k / 6) else if k % 6 = 4 then .op false (k / 6) else .op true (k / 6)

theorem fairRun_fair : Fair fairRun := by
  constructor
  · intro n p
    simp only [fairRun]
    (repeat' split) <;> simp
  · intro a ha n
    have key : ∀ k, ∃ m, n ≤ m ∧ m.unpair.1 = k := fun k => ⟨Nat.pair k n, Nat.right_le_pair k n, by rw [Nat.unpair_pair]⟩
    cases a with
    | abort p => exact absurd rfl (ha p)
    | gen p =>
      obtain ⟨m, h1, h2⟩ := key (if p then 1 else 0)
      exact ⟨m, h1, by cases p <;> simp [fairRun, h2]⟩
    | finish p b =>
      obtain ⟨m, h1, h2⟩ := key (6 * b + if p then 3 else 2)
      refine ⟨m, h1, ?_⟩
      simp only [fairRun, h2]
      cases p
      · have e1 : (6 * b + 2) % 6 = 2 := by omega
        have e2 : (6 * b + 2) / 6 = b := by omega
        simp [e1, e2]
      · have e1 : (6 * b + 3) % 6 = 3 := by omega
        have e2 : (6 * b + 3) / 6 = b := by omega
        simp [e1, e2]
    | op p b =>
      obtain ⟨m, h1, h2⟩ := key (6 * b + if p then 5 else 4)
      refine ⟨m, h1, ?_⟩
      simp only [fairRun, h2]
      cases p
      · have e1 : (6 * b + 4) % 6 = 4 := by omega
        have e2 : (6 * b + 4) / 6 = b := by omega
        simp [e1, e2]
      · have e1 : (6 * b + 5) % 6 = 5 := by omega
        have e2 : (6 * b + 5) / 6 = b := by omega
        simp [e1, e2]

/-- A PRF with pieces in several batches, then a circuit of two rounds, then an exchange in the other direction, while party 1
starts everything ahead. -/
example (f : Nat → Act) (hf : Fair f) :
    let Q : Bool → Nat → List Op := fun p t => [prf ⟨1, [0, 1], some 2, some 3, 2, 5, [4, 5]⟩,
      (fun _ t => if t ≠ 0 then [] else gmw 7 [([6], 2), ([6, 7], 1)]),
      (fun p t => if t ≠ 0 then [] else if p = false then exchRecv 8 [8] else exchSend 8 [8])].flatMap fun R => R p t
    let P := withPre 9 3 false Q 2 fun p => if p then [8, 2] else []
    ∃ n, ∀ m, n ≤ m → ∀ p t, (Q p t).length ≤ (run P (init P) ((List.range m).map f)).pos p t := by
  intro Q P
  obtain ⟨n, hn⟩ := C78_protocols 9 3 false (by decide) Q (by
    refine C78_sequence 9 _ ?_
    intro Q hQ
    simp only [List.mem_cons, List.not_mem_nil, or_false] at hQ
    rcases hQ with rfl | rfl | rfl
    · exact C78_prf 9 _ (by simp [PrfReq.ok])
    · exact C78_gmw 9 7 _ (by simp)
    · exact C78_exchange 9 8 [8] false (by simp)) (fun p => if p then [8, 2] else []) 2 (by intro p; cases p <;> rfl) f hf
  exact ⟨n, fun m hm p t => (hn m hm p t).1⟩

/-- Requests used in opposite orders by the parties. -/
example : Ord 2 [] [(false, 0, .start 0), (true, 0, .start 1), (true, 0, .start 0), (false, 0, .start 1), (false, 0, .get 0),
    (true, 0, .get 1), (true, 0, .get 0), (false, 0, .get 1)] := by
  simp [Ord, Just]
  exact ⟨⟨⟨0, 0, by simp⟩, 0, 1, by simp⟩, ⟨⟨0, 1, by simp⟩, 0, 1, by simp⟩, ⟨⟨0, 0, by simp⟩, 0, 1, by simp⟩, ⟨0, 1, by simp⟩, 0, 1, by simp⟩

/-- All steps of the generators and protocols for one batch with one coroutine each. -/
example : (run ⟨1, 1, false, fun p t => if t ≠ 0 then [] else if p = true then exchRecv 0 [0] else exchSend 0 [0]⟩
    (init ⟨1, 1, false, fun p t => if t ≠ 0 then [] else if p = true then exchRecv 0 [0] else exchSend 0 [0]⟩)
    [.op true 0, .gen true, .finish true 0, .op true 0, .op false 0, .gen false, .finish true 0, .op true 0, .op true 0, .finish false 0,
      .op false 0, .op false 0, .op false 0, .op true 0, .gen true, .gen false]).pos true 0 = 4 := by decide

/-- Both parties waiting for the other one's message is not orderly, and no execution ends. -/
example (as : List Act) : (run ⟨0, 1, false, fun _ t => if t = 0 then [.recv, .send] else []⟩
    (init ⟨0, 1, false, fun _ t => if t = 0 then [.recv, .send] else []⟩) as).pos = fun _ _ => 0 := by
  suffices h : ∀ s : St, (s.pos = fun _ _ => 0) ∧ (s.sent = fun _ _ => 0) ∧ (s.rcvd = fun _ _ => 0) →
      (run ⟨0, 1, false, fun _ t => if t = 0 then [.recv, .send] else []⟩ s as).pos = fun _ _ => 0 from h _ ⟨rfl, rfl, rfl⟩
  induction as with
  | nil => intro s h; exact h.1
  | cons a as ih =>
    intro s h
    rw [run_cons]
    apply ih
    cases a with
    | gen r => simp only [step, stepGen]; split <;> split <;> exact h
    | finish r c => simp only [step, stepFinish]; split <;> exact h
    | abort r => simp only [step, stepAbort]; split <;> exact h
    | op r t =>
      simp only [step, stepOp, h.1, h.2.1, h.2.2]
      by_cases ht : t = 0
      · subst ht; simpa using h
      · simpa [ht] using h

end Live
end SecJoin
