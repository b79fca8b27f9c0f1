import Verif.Cor.LiveLemmas
/-!
# Orders of the steps of both parties
-/
namespace SecJoin
namespace Live

/-! ## Specification -/

/-- A step of coroutine `t` of party `p`. -/
abbrev Ev := Bool × Nat × Op

/-- What a coroutine does in a list of steps of all. -/
def progOf (L : List Ev) (p : Bool) (t : Nat) : List Op := L.filterMap fun x => if x.1 = p ∧ x.2.1 = t then some x.2.2 else none

/-- What must have happened before a step: a batch can be used when both parties have started it or a later one, a message received
when it was sent, an event awaited when it was raised. -/
def Just (nb : Nat) (ctx : List Ev) : Ev → Prop
  | (_, _, .get b) => b < nb ∧ ∀ q, ∃ u c, (q, u, .start c) ∈ ctx ∧ b ≤ c
  | (p, t, .recv) => ctx.count (p, t, .recv) < ctx.count (!p, t, .send)
  | (p, _, .wait e) => ∃ u, (p, u, .raise e) ∈ ctx
  | _ => True

/-- Every step of the list has what it needs, in one order of the steps of both parties. -/
def Ord (nb : Nat) : List Ev → List Ev → Prop
  | _, [] => True
  | ctx, x :: L => Just nb ctx x ∧ Ord nb (ctx ++ [x]) L

/-- All coroutines of both parties have ended. -/
def Finished (P : Par) (s : St) : Prop := ∀ p t, (P.prog p t).length ≤ s.pos p t

/-- Both generators have ended as well. -/
def Ended (P : Par) (s : St) : Prop := Finished P s ∧ ∀ p, s.pc p = 2 * (P.nb + P.nc - 1)

/-- An endless execution without abort in which everyone always moves again. -/
def Fair (f : Nat → Act) : Prop := (∀ n p, f n ≠ .abort p) ∧ ∀ a, (∀ p, a ≠ .abort p) → ∀ n, ∃ m, n ≤ m ∧ f m = a

/-! ## Orderly programs can end -/

theorem progOf_append (A B : List Ev) (p : Bool) (t : Nat) : progOf (A ++ B) p t = progOf A p t ++ progOf B p t := by
  simp [progOf]

theorem mem_progOf {L : List Ev} {p : Bool} {t : Nat} {o : Op} : o ∈ progOf L p t ↔ (p, t, o) ∈ L := by
  simp only [progOf, List.mem_filterMap]
  constructor
  · rintro ⟨⟨q, u, o'⟩, h, e⟩
    split at e
    · rename_i hq
      cases e
      obtain ⟨rfl, rfl⟩ := hq
      exact h
    · cases e
  · intro h
    exact ⟨_, h, by simp⟩

theorem count_progOf (L : List Ev) (p : Bool) (t : Nat) (o : Op) : (progOf L p t).count o = L.count (p, t, o) := by
  induction L with
  | nil => rfl
  | cons x L ih =>
    obtain ⟨q, u, o'⟩ := x
    have : progOf ((q, u, o') :: L) p t = progOf [(q, u, o')] p t ++ progOf L p t := progOf_append [_] L p t
    rw [this, List.count_append, ih, List.count_cons, Nat.add_comm]
    congr 1
    simp only [progOf, List.filterMap_cons, List.filterMap_nil]
    by_cases h : q = p ∧ u = t
    · obtain ⟨rfl, rfl⟩ := h
      by_cases k : o' = o
      · subst k; simp
      · simp [k]
    · rw [if_neg h]
      have : ¬ (q, u, o') = (p, t, o) := fun e => h ⟨congrArg (·.1) e, congrArg (·.2.1) e⟩
      simp [this]

theorem ord_append {nb : Nat} {ctx A B : List Ev} : Ord nb ctx (A ++ B) ↔ Ord nb ctx A ∧ Ord nb (ctx ++ A) B := by
  induction A generalizing ctx with
  | nil => simp [Ord]
  | cons x A ih => simp [Ord, ih, and_assoc]

/-- From the state after `A`, the steps `B` can be done in order. -/
theorem orderly_from {P : Par} (hc : 0 < P.nc) (A B : List Ev) (hp : ∀ p t, P.prog p t = progOf (A ++ B) p t) (ho : Ord P.nb A B)
    (s : St) (hi : Inv P s) (hs : ∀ p t, s.pos p t = (progOf A p t).length) : ∃ as, Calm as ∧ Finished P (run P s as) ∧
      ∀ p t, (run P s as).pos p t = (P.prog p t).length := by
  induction B generalizing A s with
  | nil =>
    refine ⟨[], by simp [Calm], fun p t => ?_, fun p t => ?_⟩
    · rw [hp]; simp only [run, List.foldl_nil, hs, List.append_nil]; exact Nat.le_refl _
    · rw [hp]; simp only [run, List.foldl_nil, hs, List.append_nil]
  | cons x B ih =>
    obtain ⟨p, t, o⟩ := x
    obtain ⟨hj, ho'⟩ := ho
    have hd : ∀ (s : St), (∀ p t, s.pos p t = (progOf A p t).length) → ∀ q u, done P s q u = progOf A q u := by
      intro s hs q u
      rw [done, hp, hs, progOf_append, List.take_left]
    have hget : (P.prog p t)[(progOf A p t).length]? = some o := by
      rw [hp, progOf_append, List.getElem?_append_right (Nat.le_refl _), Nat.sub_self]
      simp [progOf]
    -- the generators first
    have pre : ∃ as, Quiet as ∧ ∀ b, o = .get b → (run P s as).ready p b = true := by
      cases o with
      | get b =>
        obtain ⟨hb, hst⟩ := hj
        have hw : ∀ q, b + 1 ≤ s.want q := by
          intro q
          obtain ⟨u, c, hm, hbc⟩ := hst q
          have := (hi.want q b).2 ⟨u, c, by rw [hd s hs]; exact mem_progOf.2 hm, hbc⟩
          omega
        obtain ⟨as, h1, h2⟩ := gen_ready hc (b + 1) (by omega) s hi hw
        refine ⟨as, h1, ?_⟩
        intro b' e
        cases e
        exact h2 p b (by omega)
      | _ => exact ⟨[], by simp [Quiet], by intro b e; cases e⟩
    obtain ⟨as, q1, r1⟩ := pre
    have i1 := inv_run hi q1.calm
    have p1 : ∀ p t, (run P s as).pos p t = (progOf A p t).length := by rw [(quiet_keeps q1).1]; exact hs
    generalize hs1 : run P s as = s1 at i1 p1 r1
    have hgo : (stepOp P s1 p t).pos = upd2 s1.pos p t (s1.pos p t + 1) := by
      unfold stepOp
      rw [p1, hget]
      cases o with
      | start b => rfl
      | send => rfl
      | raise e => rfl
      | get b => dsimp only; rw [if_pos (r1 b rfl)]
      | recv =>
        dsimp only
        rw [if_pos]
        rw [i1.rcvd, i1.sent, hd s1 p1, hd s1 p1, count_progOf, count_progOf]
        exact hj
      | wait e =>
        dsimp only
        rw [if_pos]
        obtain ⟨u, hu⟩ := hj
        exact (i1.raised p e).2 ⟨u, by rw [hd s1 p1]; exact mem_progOf.2 hu⟩
    have hca : ∀ q, Act.op p t ≠ .abort q := by intro q h; cases h
    obtain ⟨bs, c2, f2, g2⟩ := ih (A ++ [(p, t, o)]) (by intro q u; rw [hp]; simp) ho' (step P s1 (.op p t)) (inv_step i1 hca) (by
      intro q u
      show (stepOp P s1 p t).pos q u = _
      rw [hgo, progOf_append, List.length_append]
      by_cases e : q = p ∧ u = t
      · obtain ⟨rfl, rfl⟩ := e
        rw [upd2_same, p1]
        simp [progOf]
      · rw [upd2_ne _ _ e, p1]
        have e' : ¬ (p = q ∧ t = u) := fun h => e ⟨h.1.symm, h.2.symm⟩
        simp [progOf, e'])
    refine ⟨as ++ .op p t :: bs, ?_, ?_, ?_⟩
    · intro a ha
      rcases List.mem_append.1 ha with ha | ha
      · exact q1.calm a ha
      · rcases List.mem_cons.1 ha with rfl | ha
        · exact hca
        · exact c2 a ha
    · rw [run_append, hs1, run_cons]; exact f2
    · rw [run_append, hs1, run_cons]; exact g2

/-- Programs with an order can end. -/
theorem orderly {P : Par} (hc : 0 < P.nc) {L : List Ev} (hp : ∀ p t, P.prog p t = progOf L p t) (ho : Ord P.nb [] L) :
    ∃ as, Calm as ∧ Finished P (run P (init P) as) := by
  obtain ⟨as, h1, h2, -⟩ := orderly_from hc [] L hp ho (init P) (inv_init P) (fun _ _ => rfl)
  exact ⟨as, h1, h2⟩

/-- And then the generators, if everything was started. -/
theorem orderly_gen {P : Par} (hc : 0 < P.nc) {L : List Ev} (hp : ∀ p t, P.prog p t = progOf L p t) (ho : Ord P.nb [] L)
    (hall : ∀ p, ∃ u c, (p, u, .start c) ∈ L ∧ P.nb ≤ c + 1) : ∃ as, Calm as ∧ Ended P (run P (init P) as) := by
  obtain ⟨as, h1, h2, h3⟩ := orderly_from hc [] L hp ho (init P) (inv_init P) (fun _ _ => rfl)
  have i1 := inv_run (inv_init P) h1
  generalize hs1 : run P (init P) as = s1 at h2 h3 i1
  have hw : ∀ p, P.nb ≤ s1.want p := by
    intro p
    obtain ⟨u, c, hm, hbc⟩ := hall p
    have := (i1.want p c).2 ⟨u, c, by
      rw [done, h3, List.take_length, hp]
      exact mem_progOf.2 hm, Nat.le_refl _⟩
    omega
  obtain ⟨bs, q2, r2⟩ := gen_ready hc P.nb (Nat.le_refl _) s1 i1 hw
  have i2 := inv_run i1 q2.calm
  have w2 := (quiet_keeps (P := P) (s := s1) q2).2
  have l2 := le_run P s1 bs
  generalize hs2 : run P s1 bs = s2 at i2 r2 w2 l2
  -- each generator to its end
  have fin : ∀ p s, Inv P s → (∀ q, P.nb ≤ s.want q) → (∀ q, ∀ b < P.nb, s.ready q b = true) →
      ∃ cs, Quiet cs ∧ (run P s cs).pc p = 2 * (P.nb + P.nc - 1) := by
    intro p s hi hw hr
    by_cases h0 : P.nb + P.nc - 1 = 0
    · refine ⟨[], by simp [Quiet], ?_⟩
      have := hi.pc p
      simp only [run, List.foldl_nil]
      omega
    · obtain ⟨cs, q, k⟩ := gen_on (n := P.nb + P.nc - 2) hc (by omega) p _ s rfl (fun i _ h => by have := hw p; omega)
        (fun b _ h => hr p b h) hi
      have i3 := inv_run hi q.calm
      have b3 := i3.pc p
      have l3 := le_run P s cs
      by_cases he : (run P s cs).pc p = 2 * (P.nb + P.nc - 1)
      · exact ⟨cs, q, he⟩
      · refine ⟨cs ++ [.gen p], q.append ?_, ?_⟩
        · intro a ha
          rw [List.mem_singleton] at ha
          exact .inl ⟨p, ha⟩
        · rw [run_append]
          show (step P (run P s cs) (.gen p)).pc p = _
          simp only [step, stepGen]
          rw [if_neg (by omega), if_pos ?_]
          · simp only [upd_same]; omega
          · intro h
            by_cases hb : (run P s cs).pc p / 2 + 1 - P.nc < P.nb
            · exact .inl (l3.ready p _ (hr p _ hb))
            · right; rw [i3.cut]; omega
  obtain ⟨cs, q3, e3⟩ := fin false s2 i2 (by rw [w2]; exact hw) r2
  have i3 := inv_run i2 q3.calm
  have w3 := (quiet_keeps (P := P) (s := s2) q3).2
  have l3 := le_run P s2 cs
  generalize hs3 : run P s2 cs = s3 at e3 i3 w3 l3
  obtain ⟨ds, q4, e4⟩ := fin true s3 i3 (by rw [w3, w2]; exact hw) (fun q b h => l3.ready q b (r2 q b h))
  have i4 := inv_run i3 q4.calm
  have l4 := le_run P s3 ds
  refine ⟨as ++ (bs ++ (cs ++ ds)), ?_, ?_⟩
  · intro a ha
    rcases List.mem_append.1 ha with ha | ha
    · exact h1 a ha
    · exact (q2.append (q3.append q4)).calm a ha
  · rw [run_append, run_append, run_append, hs1, hs2, hs3]
    refine ⟨fun p t => ?_, fun p => ?_⟩
    · exact Nat.le_trans (h2 p t) (((l2.trans l3).trans l4).pos p t)
    · cases p
      · have := i4.pc false
        have := l4.pc false
        omega
      · exact e4

/-! ## Pieces of orders -/

/-- No message was received that was not sent. -/
def Bal (ctx : List Ev) : Prop := ∀ p t, ctx.count (p, t, .recv) ≤ ctx.count (!p, t, .send)

/-- A list of steps that can follow any other. -/
def Good (nb : Nat) (L : List Ev) : Prop := ∀ ctx, Bal ctx → Ord nb ctx L ∧ Bal (ctx ++ L)

theorem Good.append {nb : Nat} {A B : List Ev} (ha : Good nb A) (hb : Good nb B) : Good nb (A ++ B) := by
  intro ctx h
  obtain ⟨h1, h2⟩ := ha ctx h
  obtain ⟨h3, h4⟩ := hb _ h2
  exact ⟨ord_append.2 ⟨h1, h3⟩, by rw [← List.append_assoc]; exact h4⟩

theorem Good.nil (nb : Nat) : Good nb [] := fun ctx h => ⟨trivial, by rw [List.append_nil]; exact h⟩

theorem Good.flatMap {nb : Nat} {α : Type} (l : List α) (f : α → List Ev) (h : ∀ x ∈ l, Good nb (f x)) : Good nb (l.flatMap f) := by
  induction l with
  | nil => exact Good.nil nb
  | cons x l ih =>
    rw [List.flatMap_cons]
    exact (h x (by simp)).append (ih fun y hy => h y (by simp [hy]))

theorem Good.ord {nb : Nat} {L : List Ev} (h : Good nb L) : Ord nb [] L := (h [] (by intro p t; simp)).1

theorem progOf_flatMap {α : Type} (l : List α) (f : α → List Ev) (p : Bool) (t : Nat) :
    progOf (l.flatMap f) p t = l.flatMap fun x => progOf (f x) p t := by
  induction l with
  | nil => rfl
  | cons x l ih => rw [List.flatMap_cons, List.flatMap_cons, progOf_append, ih]

/-- Both parties get the piece in batch `b`. -/
def getL (t last b : Nat) : List Ev := [(false, t, .start last), (true, t, .start last), (false, t, .get b), (true, t, .get b)]

/-- Steps without messages. -/
theorem bal_of {ctx L : List Ev} (h : Bal ctx) (h1 : ∀ x ∈ L, x.2.2 ≠ .recv) : Bal (ctx ++ L) := by
  intro p t
  have := h p t
  have h0 : L.count (p, t, .recv) = 0 := by
    rw [List.count_eq_zero]
    intro hm
    exact h1 _ hm rfl
  rw [List.count_append, List.count_append, h0]
  omega

theorem getL_good {nb t last b : Nat} (h1 : b ≤ last) (h2 : b < nb) : Good nb (getL t last b) := by
  intro ctx h
  refine ⟨?_, bal_of h (by simp [getL])⟩
  simp only [getL, Ord, Just, true_and, and_true]
  have key : ∀ (X : List Ev) (q : Bool), ∃ u c, (q, u, Op.start c) ∈ ctx ++ [(false, t, .start last)] ++ [(true, t, .start last)] ++ X ∧ b ≤ c := by
    intro X q
    refine ⟨t, last, ?_, h1⟩
    cases q <;> simp
  exact ⟨⟨h2, fun q => by have := key [] q; rwa [List.append_nil] at this⟩, h2, key _⟩

theorem ord_sends (nb : Nat) (ctx : List Ev) (p : Bool) (t k : Nat) : Ord nb ctx (List.replicate k (p, t, .send)) := by
  induction k generalizing ctx with
  | zero => trivial
  | succ k ih => exact ⟨trivial, ih _⟩

theorem sends_good (nb : Nat) (p : Bool) (t k : Nat) : Good nb (List.replicate k (p, t, .send)) := by
  intro ctx h
  refine ⟨ord_sends nb ctx p t k, bal_of h ?_⟩
  intro x hx
  rw [List.eq_of_mem_replicate hx]
  simp

theorem ord_recvs (nb : Nat) (ctx : List Ev) (p : Bool) (t k : Nat) (h : ctx.count (p, t, .recv) + k ≤ ctx.count (!p, t, .send)) :
    Ord nb ctx (List.replicate k (p, t, .recv)) := by
  induction k generalizing ctx with
  | zero => trivial
  | succ k ih =>
    refine ⟨?_, ih _ ?_⟩
    · simp only [Just]; omega
    · rw [List.count_append, List.count_append]
      simp
      omega

theorem count_rep_ne (k : Nat) {x y : Ev} (h : x ≠ y) : (List.replicate k x).count y = 0 := by
  rw [List.count_eq_zero]
  intro hm
  exact h (List.eq_of_mem_replicate hm).symm

/-- Steps `A` in which `k` messages are sent that have not been received, and their reception. -/
theorem Good.recvs {nb : Nat} {A : List Ev} (ha : Good nb A) (p : Bool) (t k : Nat) (h0 : A.count (p, t, .recv) + k ≤ A.count (!p, t, .send)) :
    Good nb (A ++ List.replicate k (p, t, .recv)) := by
  intro ctx h
  obtain ⟨h1, h2⟩ := ha ctx h
  have hb := h p t
  refine ⟨ord_append.2 ⟨h1, ord_recvs nb _ p t k ?_⟩, ?_⟩
  · rw [List.count_append, List.count_append]; omega
  · intro q u
    have h3 := h2 q u
    rw [← List.append_assoc, List.count_append, List.count_append (l₂ := List.replicate _ _)]
    by_cases e : q = p ∧ u = t
    · obtain ⟨rfl, rfl⟩ := e
      rw [List.count_replicate_self, List.count_append, List.count_append]
      omega
    · rw [count_rep_ne k (y := (q, u, .recv)) (by
        intro hh
        exact e ⟨(congrArg (·.1) hh).symm, (congrArg (·.2.1) hh).symm⟩)]
      omega

/-- `k` messages. -/
theorem msgs_good (nb : Nat) (p : Bool) (t k : Nat) : Good nb (List.replicate k (p, t, .send) ++ List.replicate k (!p, t, .recv)) := by
  refine (sends_good nb p t k).recvs (!p) t k ?_
  rw [Bool.not_not, List.count_replicate_self, count_rep_ne k (by simp)]
  omega

/-! ## Orders of the protocols -/

/-- One piece of an exchange in coroutine `t`; party `q` is the receiver. -/
def pieceL (t : Nat) (q : Bool) (last b : Nat) : List Ev := getL t last b ++ [(q, t, .send), (!q, t, .recv), (!q, t, .send)]

/-- An exchange. -/
def exchL (t : Nat) (q : Bool) (last : Nat) (bs : List Nat) : List Ev :=
  bs.flatMap (pieceL t q last) ++ List.replicate bs.length (q, t, .recv)

theorem piece_good {nb t last b : Nat} (q : Bool) (h1 : b ≤ last) (h2 : b < nb) : Good nb (pieceL t q last b) := by
  refine (getL_good h1 h2).append ?_
  have := (msgs_good nb q t 1).append (sends_good nb (!q) t 1)
  exact this

theorem count_flatMap_le {α : Type} (l : List α) (f : α → List Ev) (x : Ev) (n : Nat) (h : ∀ a ∈ l, (f a).count x = n) :
    (l.flatMap f).count x = n * l.length := by
  induction l with
  | nil => simp
  | cons a l ih =>
    rw [List.flatMap_cons, List.count_append, h a (by simp), ih (fun b hb => h b (by simp [hb])), List.length_cons, Nat.mul_add]
    omega

theorem exch_good {nb t last : Nat} {bs : List Nat} (q : Bool) (h : ∀ b ∈ bs, b ≤ last ∧ b < nb) : Good nb (exchL t q last bs) := by
  refine (Good.flatMap bs _ fun b hb => piece_good q (h b hb).1 (h b hb).2).recvs q t bs.length ?_
  rw [count_flatMap_le bs _ _ 0, count_flatMap_le bs _ _ 1]
  · omega
  · intro b _
    cases q <;> simp [pieceL, getL]
  · intro b _
    cases q <;> simp [pieceL, getL]

theorem progOf_rep_same (k : Nat) (p : Bool) (t : Nat) (o : Op) : progOf (List.replicate k (p, t, o)) p t = List.replicate k o := by
  induction k with
  | zero => rfl
  | succ k ih =>
    rw [List.replicate_succ, List.replicate_succ, ← ih]
    simp [progOf]

theorem progOf_rep_ne (k : Nat) {p q : Bool} {t u : Nat} (o : Op) (h : ¬ (q = p ∧ u = t)) : progOf (List.replicate k (q, u, o)) p t = [] := by
  simp [progOf, h]

theorem exch_prog (t : Nat) (q : Bool) (last : Nat) (bs : List Nat) (p : Bool) (u : Nat) :
    progOf (exchL t q last bs) p u = if u ≠ t then [] else if p = q then exchRecv last bs else exchSend last bs := by
  rw [exchL, progOf_append, progOf_flatMap]
  by_cases hu : u = t
  · subst hu
    rw [if_neg (by simp)]
    by_cases hp : p = q
    · subst hp
      rw [if_pos rfl, progOf_rep_same, exchRecv]
      congr 1
      congr 1
      funext b
      cases p <;> simp [pieceL, getL, progOf, getOps]
    · rw [if_neg hp, progOf_rep_ne _ _ (by simpa using fun h => hp h.symm), List.append_nil, exchSend]
      congr 1
      funext b
      cases p <;> cases q <;> simp_all [pieceL, getL, progOf, getOps]
  · rw [if_pos hu, progOf_rep_ne _ _ (by intro h; exact hu h.2.symm), List.append_nil]
    have hu' : ¬ t = u := fun h => hu h.symm
    rw [List.flatMap_eq_nil_iff]
    intro b _
    simp [pieceL, getL, progOf, hu']

/-- A round of `Gmw::run`. -/
def roundL (t last : Nat) (r : List Nat × Nat) : List Ev :=
  r.1.flatMap (getL t last) ++
    ((List.replicate r.2 (false, t, .send) ++ List.replicate r.2 (true, t, .send) ++ List.replicate r.2 (false, t, .recv)) ++
      List.replicate r.2 (true, t, .recv))

/-- A run. -/
def gmwL (t last : Nat) (rounds : List (List Nat × Nat)) : List Ev := rounds.flatMap (roundL t last)

theorem gmw_good {nb t last : Nat} {rounds : List (List Nat × Nat)} (h : ∀ r ∈ rounds, ∀ b ∈ r.1, b ≤ last ∧ b < nb) :
    Good nb (gmwL t last rounds) := by
  refine Good.flatMap rounds _ fun r hr => ?_
  refine (Good.flatMap r.1 _ fun b hb => getL_good (h r hr b hb).1 (h r hr b hb).2).append ?_
  refine (((sends_good nb false t r.2).append (sends_good nb true t r.2)).recvs false t r.2 ?_).recvs true t r.2 ?_
  · simp only [List.count_append, Bool.not_false, List.count_replicate_self]
    rw [count_rep_ne _ (by simp), count_rep_ne _ (by simp)]
    omega
  · simp only [List.count_append, Bool.not_true, List.count_replicate_self]
    rw [count_rep_ne _ (by simp), count_rep_ne _ (by simp), count_rep_ne _ (by simp)]
    omega

theorem gmw_prog (t last : Nat) (rounds : List (List Nat × Nat)) (p : Bool) (u : Nat) :
    progOf (gmwL t last rounds) p u = if u ≠ t then [] else gmw last rounds := by
  rw [gmwL, progOf_flatMap]
  by_cases hu : u = t
  · subst hu
    rw [if_neg (by simp), gmw]
    congr 1
    funext r
    rw [roundL, progOf_append, progOf_append, progOf_append, progOf_append, progOf_flatMap]
    have : (fun x => progOf (getL u last x) p u) = getOps last := by
      funext b
      cases p <;> simp [getL, progOf, getOps]
    rw [this, List.append_assoc (List.flatMap _ _)]
    congr 1
    cases p
    · rw [progOf_rep_same, progOf_rep_same, progOf_rep_ne _ _ (by simp), progOf_rep_ne _ _ (by simp)]
      simp
    · rw [progOf_rep_same, progOf_rep_same, progOf_rep_ne _ _ (by simp), progOf_rep_ne _ _ (by simp)]
      simp
  · rw [if_pos hu, List.flatMap_eq_nil_iff]
    have hu' : ¬ t = u := fun h => hu h.symm
    intro r _
    simp only [roundL, progOf_append, progOf_flatMap]
    rw [progOf_rep_ne _ _ (by simp [hu']), progOf_rep_ne _ _ (by simp [hu']), progOf_rep_ne _ _ (by simp [hu']),
      progOf_rep_ne _ _ (by simp [hu'])]
    simp [getL, progOf, hu']

/-- The keys of a multiplication. -/
def keyL (t : Nat) : Option Nat → List Ev
  | some b => getL t b b
  | none => []

theorem key_good {nb t : Nat} {k : Option Nat} (h : ∀ b, k = some b → b < nb) : Good nb (keyL t k) := by
  cases k with
  | none => exact Good.nil nb
  | some b => exact getL_good (Nat.le_refl b) (h b rfl)

/-- A multiplication with the key of party `q` as sender. -/
def multL (t : Nat) (q : Bool) (key : Option Nat) (k : Nat) : List Ev :=
  keyL t key ++ (List.replicate k (q, t, .send) ++ List.replicate k (!q, t, .recv))

theorem mult_good {nb t : Nat} (q : Bool) {key : Option Nat} (k : Nat) (h : ∀ b, key = some b → b < nb) : Good nb (multL t q key k) :=
  (key_good h).append (msgs_good nb q t k)

theorem key_prog (t : Nat) (key : Option Nat) (p : Bool) (u : Nat) :
    progOf (keyL t key) p u = if u ≠ t then [] else match key with | some b => getOps b b | none => [] := by
  by_cases hu : u = t
  · subst hu
    rw [if_neg (by simp)]
    cases key with
    | none => rfl
    | some b => cases p <;> simp [keyL, getL, progOf, getOps]
  · have hu' : ¬ t = u := fun h => hu h.symm
    rw [if_pos hu]
    cases key with
    | none => rfl
    | some b => simp [keyL, getL, progOf, hu']

theorem mult_prog (t : Nat) (q : Bool) (key : Option Nat) (k : Nat) (p : Bool) (u : Nat) :
    progOf (multL t q key k) p u = if u ≠ t then [] else if p = q then multSend key k else multRecv key k := by
  rw [multL, progOf_append, progOf_append, key_prog]
  by_cases hu : u = t
  · subst hu
    rw [if_neg (by simp), if_neg (by simp)]
    by_cases hp : p = q
    · subst hp
      rw [if_pos rfl, progOf_rep_same, progOf_rep_ne _ _ (by simp), List.append_nil]
      cases key <;> rfl
    · have : p = !q := by cases p <;> cases q <;> simp_all
      subst this
      rw [if_neg hp, progOf_rep_same, progOf_rep_ne _ _ (by simp), List.nil_append]
      cases key <;> rfl
  · have hu' : ¬ t = u := fun h => hu h.symm
    rw [if_pos hu, if_pos hu, progOf_rep_ne _ _ (by simp [hu']), progOf_rep_ne _ _ (by simp [hu'])]
    rfl

/-- Start and end of the second coroutine of the PRF. -/
def forkL (a b : Nat) (e : Nat) : List Ev := [(false, a, .raise e), (true, a, .raise e), (false, b, .wait e), (true, b, .wait e)]

theorem fork_good (nb a b e : Nat) : Good nb (forkL a b e) := by
  intro ctx h
  refine ⟨?_, bal_of h (by simp [forkL])⟩
  simp only [forkL, Ord, Just, true_and, and_true]
  exact ⟨⟨a, by simp⟩, ⟨a, by simp⟩⟩

/-- The PRF with shared key and inputs. -/
def prfL (r : PrfReq) : List Ev :=
  exchL 0 true r.convLast r.conv ++ (forkL 0 1 0 ++ (multL 0 true r.key0 r.msgs ++ (multL 1 false r.key1 r.msgs ++ (forkL 1 0 1 ++
    exchL 0 true r.modLast r.mod))))

/-- The batches of the requests exist. -/
def PrfReq.ok (r : PrfReq) (nb : Nat) : Prop :=
  (∀ b ∈ r.conv, b ≤ r.convLast ∧ b < nb) ∧ (∀ b ∈ r.mod, b ≤ r.modLast ∧ b < nb) ∧ (∀ b, r.key0 = some b → b < nb) ∧
    ∀ b, r.key1 = some b → b < nb

theorem prf_good {nb : Nat} {r : PrfReq} (h : r.ok nb) : Good nb (prfL r) :=
  (exch_good true h.1).append ((fork_good nb 0 1 0).append ((mult_good true r.msgs h.2.2.1).append
    ((mult_good false r.msgs h.2.2.2).append ((fork_good nb 1 0 1).append (exch_good true h.2.1)))))

theorem prf_prog (r : PrfReq) (p : Bool) (u : Nat) : progOf (prfL r) p u = prf r p u := by
  simp only [prfL, progOf_append, exch_prog, mult_prog]
  match p, u with
  | false, 0 => simp [prf, forkL, progOf]
  | true, 0 => simp [prf, forkL, progOf]
  | false, 1 => simp [prf, forkL, progOf]
  | true, 1 => simp [prf, forkL, progOf]
  | false, u + 2 => simp [prf, forkL, progOf]
  | true, u + 2 => simp [prf, forkL, progOf]

/-! ## Messages of the protocols -/

theorem count_flatMap_ops {α : Type} (l : List α) (f : α → List Op) (o : Op) (n : Nat) (h : ∀ a ∈ l, (f a).count o = n) :
    (l.flatMap f).count o = n * l.length := by
  induction l with
  | nil => simp
  | cons a l ih =>
    rw [List.flatMap_cons, List.count_append, h a (by simp), ih (fun b hb => h b (by simp [hb])), List.length_cons, Nat.mul_add]
    omega

theorem exchRecv_count (last : Nat) (bs : List Nat) :
    (exchRecv last bs).count .send = bs.length ∧ (exchRecv last bs).count .recv = bs.length := by
  rw [exchRecv, List.count_append, List.count_append, count_flatMap_ops bs _ .send 1, count_flatMap_ops bs _ .recv 0] <;>
    simp [getOps, List.count_replicate]

theorem exchSend_count (last : Nat) (bs : List Nat) :
    (exchSend last bs).count .send = bs.length ∧ (exchSend last bs).count .recv = bs.length := by
  rw [exchSend, count_flatMap_ops bs _ .send 1, count_flatMap_ops bs _ .recv 1] <;> simp [getOps]

theorem getOps_count (last : Nat) (bs : List Nat) :
    (bs.flatMap (getOps last)).count .send = 0 ∧ (bs.flatMap (getOps last)).count .recv = 0 := by
  rw [count_flatMap_ops bs _ .send 0, count_flatMap_ops bs _ .recv 0] <;> simp [getOps]

theorem gmw_count (last : Nat) (rounds : List (List Nat × Nat)) : (gmw last rounds).count .send = (gmw last rounds).count .recv := by
  induction rounds with
  | nil => rfl
  | cons r rounds ih =>
    have : gmw last (r :: rounds) = (r.1.flatMap (getOps last) ++ List.replicate r.2 .send ++ List.replicate r.2 .recv) ++ gmw last rounds := rfl
    rw [this]
    simp only [List.count_append, (getOps_count last r.1).1, (getOps_count last r.1).2, ih, List.count_replicate]
    simp

theorem multSend_count (key : Option Nat) (k : Nat) : (multSend key k).count .send = k ∧ (multSend key k).count .recv = 0 := by
  cases key <;> simp [multSend, getOps, List.count_replicate]

theorem multRecv_count (key : Option Nat) (k : Nat) : (multRecv key k).count .send = 0 ∧ (multRecv key k).count .recv = k := by
  cases key <;> simp [multRecv, getOps, List.count_replicate]

theorem prf_count (r : PrfReq) (p : Bool) (t : Nat) : (prf r p t).count .send = (prf r (!p) t).count .recv := by
  have h1 := exchRecv_count r.convLast r.conv
  have h2 := exchSend_count r.convLast r.conv
  have h3 := exchRecv_count r.modLast r.mod
  have h4 := exchSend_count r.modLast r.mod
  have h5 := multSend_count r.key0 r.msgs
  have h6 := multRecv_count r.key0 r.msgs
  have h7 := multSend_count r.key1 r.msgs
  have h8 := multRecv_count r.key1 r.msgs
  match p, t with
  | false, 0 => simp [prf, List.count_cons, h1, h2, h3, h4, h5, h6, h7, h8]
  | true, 0 => simp [prf, List.count_cons, h1, h2, h3, h4, h5, h6, h7, h8]
  | false, 1 => simp [prf, List.count_cons, h1, h2, h3, h4, h5, h6, h7, h8]
  | true, 1 => simp [prf, List.count_cons, h1, h2, h3, h4, h5, h6, h7, h8]
  | false, u + 2 => simp [prf]
  | true, u + 2 => simp [prf]

end Live
end SecJoin
