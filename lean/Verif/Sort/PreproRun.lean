import Verif.Sort.PreproLemmas
/-!
Progress of the two parties while a sort is prepared: some step can be made until both have ended, and only finitely many can be made.
-/
namespace SecJoin
namespace Prepro

/-- Round `i` was let go by a party that executed `pre`. -/
def Rdy (lead : Nat) (pre : List Ins) (i : Nat) : Prop := .spawn ∈ pre ∧ (i < lead ∨ (.setLead ∈ pre ∧ i < lead + rels pre))

theorem rels_mono {x y : List Ins} (h : x <+: y) : rels x ≤ rels y := h.sublist.count_le _

theorem Rdy.mono {lead i : Nat} {x y : List Ins} (h : x <+: y) (r : Rdy lead x i) : Rdy lead y i := by
  have := rels_mono h
  refine ⟨h.subset r.1, r.2.imp_right fun ⟨a, b⟩ => ⟨h.subset a, by omega⟩⟩

theorem PInv.rdy {ll lead i : Nat} {prog pre : List Ins} {p q : Party} (h : PInv ll lead prog pre p) (r : Rdy lead pre i) (hi : i < ll)
    (hc : .clear ∉ pre) (hq : Party.task q p i = none) : p.tasks[i]? = some .running ∨ p.tasks[i]? = some .done := by
  have hn : pre ≠ [] := by rintro rfl; cases r.1
  have hlt : i < p.tasks.length := by rw [h.lenT hn hc]; exact hi
  have hrel : p.rel[i]? = some true := by
    rw [h.rel r.1 hc i hi]
    congr 1
    apply decide_eq_true
    rcases r.2 with r2 | ⟨r2, r3⟩
    · exact Or.inl r2
    · have := h.lo r2
      right; omega
  cases ht : p.tasks[i] with
  | idle => exact absurd ht (h.busy r.1 _ (List.getElem_mem hlt))
  | waiting =>
    rw [Party.task, List.getElem?_eq_getElem hlt, ht] at hq
    simp only [hrel, if_true] at hq
    split at hq <;> cases hq
  | running => left; rw [List.getElem?_eq_getElem hlt, ht]
  | done => right; rw [List.getElem?_eq_getElem hlt, ht]

theorem PInv.sentTo {ll lead i : Nat} {prog pre : List Ins} {p q : Party} (h : PInv ll lead prog pre p) (r : Rdy lead pre i) (hi : i + 1 < ll)
    (hq : Party.task q p i = none) : (1, i) ∈ p.out := by
  by_cases hc : .clear ∈ pre
  · exact (h.outC hc).2.1 i hi
  · exact h.out i hi (h.rdy r (by omega) hc hq)

/-- A round let go by both parties is ended once no task can make a step. -/
theorem round_done {ll la lb i : Nat} {prog pa pb : List Ins} {a b : Party} (ha : PInv ll la prog pa a) (hb : PInv ll lb prog pb b)
    (ra : Rdy la pa i) (rb : Rdy lb pb i) (hi : i < ll) (hc : .clear ∉ pa) (ta : Party.task b a i = none) (tb : Party.task a b i = none) :
    a.tasks[i]? = some .done := by
  rcases ha.rdy ra hi hc ta with h | h
  · have hi1 := ha.running i h
    have hn : pa ≠ [] := by rintro rfl; cases ra.1
    have := hb.sentTo rb hi1 tb
    rw [Party.task, h, ha.gen hn] at ta
    simp [this] at ta
  · exact h

theorem main_ready {ll la lb : Nat} {prog pa pb : List Ins} {a b : Party} (oa : OkFrom ll la [] prog) (ob : OkFrom ll lb [] prog)
    (ha : PInv ll la prog pa a) (hb : PInv ll lb prog pb b) (hp : pa <+: pb) (ta : ∀ i, Party.task b a i = none) (tb : ∀ i, Party.task a b i = none)
    (hm : Party.main b a = none) : a.code = [] := by
  cases hc : a.code with
  | nil => rfl
  | cons x c =>
    exfalso
    have hs : prog = pa ++ x :: c := by rw [ha.split, hc]
    have ca := okFrom_at (hs ▸ oa)
    have cb := okFrom_at (hs ▸ ob)
    rw [Party.main, hc] at hm
    obtain ⟨hcl, ca⟩ := ca
    obtain ⟨-, cb⟩ := cb
    cases x with
    | recv e =>
      dsimp only at hm
      rw [if_pos] at hm
      · cases hm
      · rw [ha.got, hb.sent]
        have : sends pa ≤ sends pb := hp.sublist.count_le _
        have := ca.2.1
        omega
    | release => dsimp only at hm; split at hm <;> cases hm
    | wait i =>
      dsimp only at hm
      have := round_done (i := i) ha hb ⟨ca.1, Or.inr ca.2.2⟩ (Rdy.mono hp ⟨cb.1, Or.inr cb.2.2⟩) (by have := ca.2.1; omega) hcl (ta i) (tb i)
      rw [if_pos this] at hm
      cases hm
    | join =>
      dsimp only at hm
      rw [if_pos] at hm
      · cases hm
      · rw [List.all_eq_true]
        intro t ht
        obtain ⟨i, hi, rfl⟩ := List.mem_iff_getElem.1 ht
        have hn : pa ≠ [] := by intro c; rw [c] at ca; cases ca.1
        have hl : i < ll := by rw [← ha.lenT hn hcl]; exact hi
        have := round_done (i := i) ha hb ⟨ca.1, ca.2.imp (fun _ => by omega) (fun r => ⟨r.1, by omega⟩)⟩
          (Rdy.mono hp ⟨cb.1, cb.2.imp (fun _ => by omega) (fun r => ⟨r.1, by omega⟩)⟩) hl hcl (ta i) (tb i)
        rw [List.getElem?_eq_getElem hi] at this
        have := Option.some.inj this
        simp [this]
    | clear => dsimp only at hm; split at hm <;> cases hm
    | stop e => exact ca
    | _ => cases hm

/-- Neither party can make a step: then both main protocols have ended. -/
theorem both_ready {ll la lb : Nat} {prog pa pb : List Ins} {a b : Party} (oa : OkFrom ll la [] prog) (ob : OkFrom ll lb [] prog)
    (ha : PInv ll la prog pa a) (hb : PInv ll lb prog pb b) (ta : ∀ i, Party.task b a i = none) (tb : ∀ i, Party.task a b i = none)
    (ma : Party.main b a = none) (mb : Party.main a b = none) : a.code = [] ∧ b.code = [] := by
  have xa : pa <+: prog := ⟨_, ha.split.symm⟩
  have xb : pb <+: prog := ⟨_, hb.split.symm⟩
  have full : ∀ {x y : List Ins} {p q : List Ins}, x <+: y → prog = x ++ p → prog = y ++ q → p = [] → q = [] := by
    intro x y p q h1 h2 h3 h4
    subst h4
    have := h1.length_le
    have e1 := congrArg List.length h2
    have e2 := congrArg List.length h3
    simp only [List.length_append, List.length_nil] at e1 e2
    exact List.length_eq_zero_iff.1 (by omega)
  rcases Nat.le_total pa.length pb.length with hl | hl
  · have hp := List.prefix_of_prefix_length_le xa xb hl
    have := main_ready oa ob ha hb hp ta tb ma
    exact ⟨this, full hp ha.split hb.split this⟩
  · have hp := List.prefix_of_prefix_length_le xb xa hl
    have := main_ready ob oa hb ha hp tb ta mb
    exact ⟨full hp hb.split ha.split this, this⟩

/-! ### The measure -/

def Ins.weight : Ins → Nat
  | .init n => 1 + 3 * n
  | _ => 1

def Task.weight : Task → Nat
  | .idle => 3
  | .waiting => 2
  | .running => 1
  | .done => 0

def Party.mu (p : Party) : Nat := (p.code.map Ins.weight).sum + (p.tasks.map Task.weight).sum

def Sys.mu (s : Sys) : Nat := s.a.mu + s.b.mu

theorem sum_idle : ∀ (l : List Task), (∀ t ∈ l, t = .idle) → (l.map Task.weight).sum = 3 * l.length
  | [], _ => rfl
  | t :: l, h => by
    rw [h t List.mem_cons_self, List.map_cons, List.sum_cons, sum_idle l fun t ht => h t (List.mem_cons_of_mem _ ht), List.length_cons]
    simp only [Task.weight]
    omega

theorem sum_waiting : ∀ (l : List Task), ((l.map fun _ => Task.waiting).map Task.weight).sum = 2 * l.length
  | [] => rfl
  | t :: l => by
    rw [List.map_cons, List.map_cons, List.sum_cons, sum_waiting l, List.length_cons]
    simp only [Task.weight]
    omega

theorem sum_set : ∀ (l : List Task) (i : Nat) (t u : Task), l[i]? = some t →
    ((l.set i u).map Task.weight).sum + t.weight = (l.map Task.weight).sum + u.weight
  | [], _, _, _, h => by cases h
  | x :: l, 0, t, u, h => by
    cases h
    simp only [List.set_cons_zero, List.map_cons, List.sum_cons]
    omega
  | x :: l, i + 1, t, u, h => by
    have := sum_set l i t u (by simpa using h)
    simp only [List.set_cons_succ, List.map_cons, List.sum_cons]
    omega

theorem mu_task {p q p' : Party} {i : Nat} (e : Party.task q p i = some p') : p'.mu < p.mu := by
  unfold Party.task at e
  split at e
  · rename_i ht
    split at e
    · split at e
      · cases e
        have := sum_set _ _ _ .done ht
        simp only [Task.weight] at this
        simp only [Party.mu]
        omega
      · cases e
        have := sum_set _ _ _ .running ht
        simp only [Task.weight] at this
        simp only [Party.mu]
        omega
    · cases e
  · rename_i ht
    split at e
    · cases e
      have := sum_set _ _ _ .done ht
      simp only [Task.weight] at this
      simp only [Party.mu]
      omega
    · cases e
  · cases e

theorem mu_main {ll lead : Nat} {prog pre : List Ins} {p q p' : Party} (hok : OkFrom ll lead [] prog) (h : PInv ll lead prog pre p)
    (e : Party.main q p = some p') : p'.mu < p.mu := by
  cases hc : p.code with
  | nil => rw [Party.main, hc] at e; cases e
  | cons b c =>
    have hcond : Cond ll lead pre b := okFrom_at (by rw [h.split, hc] at hok; exact hok)
    rw [Party.main, hc] at e
    simp only [Party.mu, hc, List.map_cons, List.sum_cons]
    have pos : 1 ≤ b.weight := by cases b <;> simp [Ins.weight]
    cases b with
    | init n =>
      cases e
      have := sum_idle (List.replicate n .idle) fun t ht => List.eq_of_mem_replicate ht
      rw [List.length_replicate] at this
      simp only [Ins.weight]
      omega
    | spawn =>
      cases e
      have h1 := sum_waiting p.tasks
      have h2 := sum_idle p.tasks (h.early hcond.2.2.1)
      simp only
      omega
    | clear => dsimp only at e; split at e <;> cases e <;> simp <;> omega
    | stop e => exact hcond.2.elim
    | _ =>
      dsimp only at e
      first
        | (cases e; simp only; omega)
        | (split at e <;> first | (cases e; done) | (cases e; simp only; omega))

/-! ### Both parties -/

def SInv (ll la lb : Nat) (prog : List Ins) (s : Sys) : Prop := (∃ pre, PInv ll la prog pre s.a) ∧ ∃ pre, PInv ll lb prog pre s.b

theorem SInv.step {ll la lb : Nat} {prog : List Ins} (oa : OkFrom ll la [] prog) (ob : OkFrom ll lb [] prog) {s s' : Sys} {w : Who}
    (h : SInv ll la lb prog s) (e : Prepro.step w s = some s') : SInv ll la lb prog s' ∧ s'.mu < s.mu := by
  obtain ⟨⟨pa, ha⟩, pb, hb⟩ := h
  rcases w with ⟨_ | _⟩ | ⟨_ | _, i⟩ <;> obtain ⟨p', hp, rfl⟩ := Option.map_eq_some_iff.1 e
  · obtain ⟨x, -, hx⟩ := ha.main_step oa hp
    have := mu_main oa ha hp
    exact ⟨⟨⟨_, hx⟩, _, hb⟩, by simp only [Sys.mu]; omega⟩
  · obtain ⟨x, -, hx⟩ := hb.main_step ob hp
    have := mu_main ob hb hp
    exact ⟨⟨⟨_, ha⟩, _, hx⟩, by simp only [Sys.mu]; omega⟩
  · have := mu_task hp
    exact ⟨⟨⟨_, ha.task hp⟩, _, hb⟩, by simp only [Sys.mu]; omega⟩
  · have := mu_task hp
    exact ⟨⟨⟨_, ha⟩, _, hb.task hp⟩, by simp only [Sys.mu]; omega⟩

theorem SInv.run {ll la lb : Nat} {prog : List Ins} (oa : OkFrom ll la [] prog) (ob : OkFrom ll lb [] prog) : ∀ (sched : List Who) {s : Sys},
    SInv ll la lb prog s → SInv ll la lb prog (Prepro.run sched s)
  | [], _, h => h
  | w :: t, s, h => by
    rw [Prepro.run]
    cases hw : Prepro.step w s with
    | none => exact SInv.run oa ob t h
    | some s' => exact SInv.run oa ob t (h.step oa ob hw).1

theorem SInv.start {ll la lb : Nat} (calls : List Call) : SInv ll la lb (compile false 0 calls) (Prepro.start calls la lb) :=
  ⟨⟨_, PInv.start ll la calls⟩, _, PInv.start ll lb calls⟩

theorem SInv.stuck {ll la lb : Nat} {prog : List Ins} (oa : OkFrom ll la [] prog) (ob : OkFrom ll lb [] prog) {s : Sys} (h : SInv ll la lb prog s)
    (st : ∀ w, Prepro.step w s = none) : PInv ll la prog prog s.a ∧ PInv ll lb prog prog s.b ∧ s.a.code = [] ∧ s.b.code = [] := by
  obtain ⟨⟨pa, ha⟩, pb, hb⟩ := h
  have := both_ready oa ob ha hb (fun i => by simpa [Prepro.step] using st (.task false i)) (fun i => by simpa [Prepro.step] using st (.task true i))
    (by simpa [Prepro.step] using st (.main false)) (by simpa [Prepro.step] using st (.main true))
  have ea : prog = pa := by rw [ha.split, this.1, List.append_nil]
  have eb : prog = pb := by rw [hb.split, this.2, List.append_nil]
  exact ⟨by subst ea; exact ha, by subst eb; exact hb, this⟩

/-! ### What one party knows of the other -/

def Cross (ll : Nat) (p q : Party) : Prop := (∀ i, i + 1 < ll → .made i ∈ p.log → (1, i) ∈ q.out) ∧ p.got ≤ q.sent

theorem Cross.mono {ll : Nat} {p q q' : Party} (h : Cross ll p q) (ho : ∀ x, x ∈ q.out → x ∈ q'.out) (hs : q.sent ≤ q'.sent) : Cross ll p q' :=
  ⟨fun i hi hm => ho _ (h.1 i hi hm), Nat.le_trans h.2 hs⟩

theorem main_grows {p q p' : Party} (e : Party.main q p = some p') : p'.out = p.out ∧ p.sent ≤ p'.sent := by
  unfold Party.main at e
  split at e <;> first
    | (cases e; done)
    | (cases e; exact ⟨rfl, by simp⟩)
    | (split at e <;> first | (cases e; done) | (cases e; exact ⟨rfl, by simp⟩))

theorem task_grows {p q p' : Party} {i : Nat} (e : Party.task q p i = some p') : (∀ x, x ∈ p.out → x ∈ p'.out) ∧ p'.sent = p.sent ∧ p'.got = p.got := by
  unfold Party.task at e
  split at e
  · split at e
    · split at e <;> cases e
      · exact ⟨fun _ h => h, rfl, rfl⟩
      · exact ⟨fun _ h => List.mem_cons_of_mem _ h, rfl, rfl⟩
    · cases e
  · split at e
    · cases e; exact ⟨fun _ h => h, rfl, rfl⟩
    · cases e
  · cases e

theorem Cross.main {ll lead : Nat} {prog pre : List Ins} {p q p' : Party} (hok : OkFrom ll lead [] prog) (h : PInv ll lead prog pre p)
    (c : Cross ll p q) (e : Party.main q p = some p') : Cross ll p' q := by
  cases hc : p.code with
  | nil => rw [Party.main, hc] at e; cases e
  | cons b t =>
    have hcond : Cond ll lead pre b := okFrom_at (by rw [h.split, hc] at hok; exact hok)
    rw [Party.main, hc] at e
    cases b with
    | recv ev =>
      dsimp only at e
      split at e
      · rename_i hlt
        cases e
        refine ⟨fun i hi hm => c.1 i hi ?_, hlt⟩
        rcases List.mem_append.1 hm with hm | hm
        · exact hm
        · rw [← List.mem_singleton.1 hm] at hcond
          cases hcond.2.2.2.1
      · cases e
    | stop er => exact hcond.2.elim
    | _ =>
      dsimp only at e
      first
        | (cases e; exact c)
        | (split at e <;> first | (cases e; done) | (cases e; exact c))

theorem Cross.task {ll lead : Nat} {prog pre : List Ins} {p q p' : Party} {i : Nat} (h : PInv ll lead prog pre p)
    (c : Cross ll p q) (e : Party.task q p i = some p') : Cross ll p' q := by
  have nonempty : ∀ {t : Task}, p.tasks[i]? = some t → t ≠ .idle → pre ≠ [] ∧ .clear ∉ pre := by
    intro t ht hn
    refine ⟨?_, fun hc => ?_⟩
    · rintro rfl
      rw [(h.first rfl).2] at ht
      cases ht
    · rw [(h.outC hc).1] at ht
      cases ht
  refine ⟨fun j hj hm => ?_, by rw [(task_grows e).2.2]; exact c.2⟩
  unfold Party.task at e
  split at e
  · rename_i ht
    obtain ⟨n1, n2⟩ := nonempty ht (by decide)
    split at e
    · split at e
      · rename_i hl
        cases e
        rw [h.lenT n1 n2] at hl
        rcases List.mem_append.1 hm with hm | hm
        · exact c.1 j hj hm
        · have : j = i := by simpa using hm
          omega
      · cases e
        rcases List.mem_append.1 hm with hm | hm
        · exact c.1 j hj hm
        · simp at hm
    · cases e
  · rename_i ht
    obtain ⟨n1, n2⟩ := nonempty ht (by decide)
    split at e
    · rename_i hin
      cases e
      rcases List.mem_append.1 hm with hm | hm
      · exact c.1 j hj hm
      · have : j = i := by simpa using hm
        rw [this, ← h.gen n1]
        exact hin
    · cases e
  · cases e

theorem cross_run {ll la lb : Nat} {prog : List Ins} (oa : OkFrom ll la [] prog) (ob : OkFrom ll lb [] prog) : ∀ (sched : List Who) {s : Sys},
    SInv ll la lb prog s → Cross ll s.a s.b ∧ Cross ll s.b s.a → Cross ll (Prepro.run sched s).a (Prepro.run sched s).b ∧
      Cross ll (Prepro.run sched s).b (Prepro.run sched s).a
  | [], _, _, c => c
  | w :: t, s, h, ⟨c1, c2⟩ => by
    rw [Prepro.run]
    cases hw : Prepro.step w s with
    | none => exact cross_run oa ob t h ⟨c1, c2⟩
    | some s' =>
      refine cross_run oa ob t (h.step oa ob hw).1 ?_
      obtain ⟨⟨pa, ha⟩, pb, hb⟩ := h
      rcases w with ⟨_ | _⟩ | ⟨_ | _, i⟩ <;> obtain ⟨p', hp, rfl⟩ := Option.map_eq_some_iff.1 hw <;> simp only [Option.getD_some]
      · exact ⟨c1.main oa ha hp, c2.mono (fun x hx => by rw [(main_grows hp).1]; exact hx) (main_grows hp).2⟩
      · exact ⟨c1.mono (fun x hx => by rw [(main_grows hp).1]; exact hx) (main_grows hp).2, c2.main ob hb hp⟩
      · exact ⟨c1.task ha hp, c2.mono (task_grows hp).1 (by rw [(task_grows hp).2.1]; exact Nat.le_refl _)⟩
      · exact ⟨c1.mono (task_grows hp).1 (by rw [(task_grows hp).2.1]; exact Nat.le_refl _), c2.task hb hp⟩

theorem cross_start (ll la lb : Nat) (calls : List Call) : Cross ll (Prepro.start calls la lb).a (Prepro.start calls la lb).b ∧
    Cross ll (Prepro.start calls la lb).b (Prepro.start calls la lb).a := by
  simp [Cross, Prepro.start, Party.start]

/-! ### The programs -/

/-- What is known after some rounds. -/
structure At (i : Nat) (pre : List Ins) : Prop where
  spawn : .spawn ∈ pre
  lead : .setLead ∈ pre
  clear : .clear ∉ pre
  count : recvs pre = sends pre
  rel : rels pre = i
  rank : rankedIn (pre.filterMap Ins.ev) = i

theorem At.wait {i : Nat} {pre : List Ins} (h : At i pre) (j : Nat) : At i (pre ++ [.wait j]) :=
  ⟨List.mem_append_left _ h.spawn, List.mem_append_left _ h.lead, by simpa using h.clear, by simpa [Ins.ev] using h.count, by simpa using h.rel,
    by rw [ev_none rfl]; exact h.rank⟩

theorem At.talk {i : Nat} {pre : List Ins} (h : At i pre) {e : Ev} (he : e.isRanked = false) : At i (pre ++ [.send] ++ [.recv e]) :=
  ⟨List.mem_append_left _ (List.mem_append_left _ h.spawn), List.mem_append_left _ (List.mem_append_left _ h.lead),
    by rw [List.append_assoc]; simpa using h.clear, by simp only [recvs_snoc, sends_snoc]; simpa [Ins.ev] using h.count,
    by simp only [rels_snoc]; simpa using h.rel, by
      rw [ev_snoc, ev_none rfl, rankedIn_append, h.rank]
      simp [rankedIn, Ins.ev, he]⟩

theorem At.next {i : Nat} {pre : List Ins} (h : At i pre) (j : Nat) : At (i + 1) (pre ++ [.send] ++ [.recv (.ranked j)] ++ [.release]) :=
  ⟨by simp [h.spawn], by simp [h.lead], by simpa using h.clear, by simp only [recvs_snoc, sends_snoc]; simpa [Ins.ev] using h.count,
    by simp only [rels_snoc]; simpa using h.rel, by
      rw [ev_none rfl, ev_snoc, ev_none rfl, rankedIn_append, h.rank]
      rfl⟩

theorem At.cond {i ll lead : Nat} {pre : List Ins} (h : At i pre) {e : Ev} (he : e.isMain = true)
    (hu : ∀ j, e = .used j → .wait j ∈ pre) :
    OkFrom ll lead pre [.send, .recv e] := by
  have hn : pre ≠ [] := by rintro rfl; cases h.spawn
  refine ⟨⟨h.clear, hn, by rw [h.count]; exact Nat.le_refl _⟩, ⟨by simpa using h.clear, by simp, ?_, he, fun j hj => List.mem_append_left _ (hu j hj),
    fun _ => ⟨List.mem_append_left _ h.spawn, by rw [ev_none rfl, h.rank]; simp [h.rel]⟩⟩, trivial⟩
  have := h.count
  simp only [recvs_snoc, sends_snoc, Ins.ev, if_true, Option.map_none, Option.getD_none]
  omega

theorem iters_ok {ll lead : Nat} : ∀ (n i : Nat) (pre : List Ins), At i pre → 0 < i → i + n = ll →
    OkFrom ll lead pre (iters i n) ∧ At ll (pre ++ iters i n)
  | 0, i, pre, h, _, hl => by
    rw [iters, List.append_nil]
    exact ⟨trivial, by have : i = ll := by omega
                       exact this ▸ h⟩
  | n + 1, i, pre, h, hi, hl => by
    have h1 := h.wait (i - 1)
    have h2 := h1.talk (e := .used (i - 1)) rfl
    have h3 := h2.next i
    have h4 := h3.talk (e := .composed (i - 1)) rfl
    obtain ⟨k1, k2⟩ := iters_ok (ll := ll) (lead := lead) n (i + 1) _ h4 (by omega) (by omega)
    have e : iters i (n + 1) = [.wait (i - 1)] ++ ([.send, .recv (.used (i - 1))] ++ ([.send, .recv (.ranked i)] ++ ([.release] ++
      ([.send, .recv (.composed (i - 1))] ++ iters (i + 1) n)))) := rfl
    rw [e]
    refine ⟨?_, by simpa using k2⟩
    rw [okFrom_append]
    refine ⟨⟨⟨h.clear, h.spawn, by omega, h.lead, ?_⟩, trivial⟩, ?_⟩
    · have := h.rel; omega
    rw [okFrom_append]
    refine ⟨h1.cond rfl (fun j hj => by cases hj; simp), ?_⟩
    rw [okFrom_append]
    have h2' : At i (pre ++ [.wait (i - 1)] ++ [.send, .recv (.used (i - 1))]) := by simpa using h2
    have h3' : At (i + 1) (pre ++ [.wait (i - 1)] ++ [.send, .recv (.used (i - 1))] ++ [.send, .recv (.ranked i)] ++ [.release]) := by simpa using h3
    refine ⟨h2'.cond rfl (fun j hj => by cases hj), ?_⟩
    rw [okFrom_append]
    refine ⟨⟨⟨?_, ?_, ?_, ?_⟩, trivial⟩, ?_⟩
    · simpa using h2'.clear
    · exact List.mem_append_left _ h2'.spawn
    · exact List.mem_append_left _ h2'.lead
    · have e2 : pre ++ [.wait (i - 1)] ++ [.send, .recv (.used (i - 1))] ++ [.send, .recv (.ranked i)] =
          (pre ++ [.wait (i - 1)] ++ [.send, .recv (.used (i - 1))]) ++ [.send] ++ [.recv (.ranked i)] := by simp
      rw [e2, rels_snoc, rels_snoc, ev_snoc, ev_none rfl, rankedIn_append, h2'.rank, h2'.rel]
      simp [rankedIn, Ins.ev, Ev.isRanked]
    rw [okFrom_append]
    exact ⟨h3'.cond rfl (fun j hj => by cases hj), by simpa using k1⟩

end Prepro
end SecJoin
